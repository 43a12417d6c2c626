import Verif.Lemmas.Curves.Pratt
import Mathlib.Tactic.NormNum.Prime

/-!
# The primes of secp256k1 and Curve25519

Certificates for the characteristics of the base fields and the orders of the groups, computed outside of Lean.
-/

set_option autoImplicit false

namespace ElasticElgamal.Curves

theorem prime_13331831 : Nat.Prime 13331831 :=
  prime_of_lucasCheck 13 24 [2, 5, 971, 1373]
    (by
      intro q hq
      simp only [List.mem_cons, List.not_mem_nil, or_false] at hq
      rcases hq with rfl | rfl | rfl | rfl
      · norm_num
      · norm_num
      · norm_num
      · norm_num)
    (by decide +kernel)

theorem prime_173378833005251801 : Nat.Prime 173378833005251801 :=
  prime_of_lucasCheck 6 58 [2, 2, 2, 5, 5, 2621, 24809, 13331831]
    (by
      intro q hq
      simp only [List.mem_cons, List.not_mem_nil, or_false] at hq
      rcases hq with rfl | rfl | rfl | rfl | rfl | rfl | rfl | rfl
      · norm_num
      · norm_num
      · norm_num
      · norm_num
      · norm_num
      · norm_num
      · norm_num
      · exact prime_13331831)
    (by decide +kernel)

theorem prime_22149492674086928081353 : Nat.Prime 22149492674086928081353 :=
  prime_of_lucasCheck 5 75 [2, 2, 2, 3, 5323, 173378833005251801]
    (by
      intro q hq
      simp only [List.mem_cons, List.not_mem_nil, or_false] at hq
      rcases hq with rfl | rfl | rfl | rfl | rfl | rfl
      · norm_num
      · norm_num
      · norm_num
      · norm_num
      · norm_num
      · exact prime_173378833005251801)
    (by decide +kernel)

theorem prime_132896956044521568488119 : Nat.Prime 132896956044521568488119 :=
  prime_of_lucasCheck 6 77 [2, 3, 22149492674086928081353]
    (by
      intro q hq
      simp only [List.mem_cons, List.not_mem_nil, or_false] at hq
      rcases hq with rfl | rfl | rfl
      · norm_num
      · norm_num
      · exact prime_22149492674086928081353)
    (by decide +kernel)

theorem prime_1206781 : Nat.Prime 1206781 :=
  prime_of_lucasCheck 10 21 [2, 2, 3, 5, 20113]
    (by
      intro q hq
      simp only [List.mem_cons, List.not_mem_nil, or_false] at hq
      rcases hq with rfl | rfl | rfl | rfl | rfl
      · norm_num
      · norm_num
      · norm_num
      · norm_num
      · norm_num)
    (by decide +kernel)

theorem prime_7240687 : Nat.Prime 7240687 :=
  prime_of_lucasCheck 3 23 [2, 3, 1206781]
    (by
      intro q hq
      simp only [List.mem_cons, List.not_mem_nil, or_false] at hq
      rcases hq with rfl | rfl | rfl
      · norm_num
      · norm_num
      · exact prime_1206781)
    (by decide +kernel)

theorem prime_107590001 : Nat.Prime 107590001 :=
  prime_of_lucasCheck 3 27 [2, 2, 2, 2, 5, 5, 5, 5, 7, 29, 53]
    (by
      intro q hq
      simp only [List.mem_cons, List.not_mem_nil, or_false] at hq
      rcases hq with rfl | rfl | rfl | rfl | rfl | rfl | rfl | rfl | rfl | rfl | rfl
      · norm_num
      · norm_num
      · norm_num
      · norm_num
      · norm_num
      · norm_num
      · norm_num
      · norm_num
      · norm_num
      · norm_num
      · norm_num)
    (by decide +kernel)

theorem prime_255515944373312847190720520512484175977 : Nat.Prime 255515944373312847190720520512484175977 :=
  prime_of_lucasCheck 3 128 [2, 2, 2, 7, 7, 11, 1627, 2657, 4423, 41201, 96557, 7240687, 107590001]
    (by
      intro q hq
      simp only [List.mem_cons, List.not_mem_nil, or_false] at hq
      rcases hq with rfl | rfl | rfl | rfl | rfl | rfl | rfl | rfl | rfl | rfl | rfl | rfl | rfl
      · norm_num
      · norm_num
      · norm_num
      · norm_num
      · norm_num
      · norm_num
      · norm_num
      · norm_num
      · norm_num
      · norm_num
      · norm_num
      · exact prime_7240687
      · exact prime_107590001)
    (by decide +kernel)

theorem prime_205115282021455665897114700593932402728804164701536103180137503955397371 : Nat.Prime 205115282021455665897114700593932402728804164701536103180137503955397371 :=
  prime_of_lucasCheck 10 237 [2, 3, 5, 29, 29, 31, 7723, 132896956044521568488119, 255515944373312847190720520512484175977]
    (by
      intro q hq
      simp only [List.mem_cons, List.not_mem_nil, or_false] at hq
      rcases hq with rfl | rfl | rfl | rfl | rfl | rfl | rfl | rfl | rfl
      · norm_num
      · norm_num
      · norm_num
      · norm_num
      · norm_num
      · norm_num
      · norm_num
      · exact prime_132896956044521568488119
      · exact prime_255515944373312847190720520512484175977)
    (by decide +kernel)

/-- The base field of secp256k1. -/
theorem secpField_prime : Nat.Prime 115792089237316195423570985008687907853269984665640564039457584007908834671663 :=
  prime_of_lucasCheck 3 256 [2, 3, 7, 13441, 205115282021455665897114700593932402728804164701536103180137503955397371]
    (by
      intro q hq
      simp only [List.mem_cons, List.not_mem_nil, or_false] at hq
      rcases hq with rfl | rfl | rfl | rfl | rfl
      · norm_num
      · norm_num
      · norm_num
      · norm_num
      · exact prime_205115282021455665897114700593932402728804164701536103180137503955397371)
    (by decide +kernel)

theorem prime_4681609 : Nat.Prime 4681609 :=
  prime_of_lucasCheck 23 23 [2, 2, 2, 3, 97, 2011]
    (by
      intro q hq
      simp only [List.mem_cons, List.not_mem_nil, or_false] at hq
      rcases hq with rfl | rfl | rfl | rfl | rfl | rfl
      · norm_num
      · norm_num
      · norm_num
      · norm_num
      · norm_num
      · norm_num)
    (by decide +kernel)

theorem prime_107361793816595537 : Nat.Prime 107361793816595537 :=
  prime_of_lucasCheck 3 57 [2, 2, 2, 2, 16699, 85831, 4681609]
    (by
      intro q hq
      simp only [List.mem_cons, List.not_mem_nil, or_false] at hq
      rcases hq with rfl | rfl | rfl | rfl | rfl | rfl | rfl
      · norm_num
      · norm_num
      · norm_num
      · norm_num
      · norm_num
      · norm_num
      · exact prime_4681609)
    (by decide +kernel)

theorem prime_44706919 : Nat.Prime 44706919 :=
  prime_of_lucasCheck 6 26 [2, 3, 797, 9349]
    (by
      intro q hq
      simp only [List.mem_cons, List.not_mem_nil, or_false] at hq
      rcases hq with rfl | rfl | rfl | rfl
      · norm_num
      · norm_num
      · norm_num
      · norm_num)
    (by decide +kernel)

theorem prime_174723607534414371449 : Nat.Prime 174723607534414371449 :=
  prime_of_lucasCheck 3 68 [2, 2, 2, 17, 59, 4051, 120233, 44706919]
    (by
      intro q hq
      simp only [List.mem_cons, List.not_mem_nil, or_false] at hq
      rcases hq with rfl | rfl | rfl | rfl | rfl | rfl | rfl | rfl
      · norm_num
      · norm_num
      · norm_num
      · norm_num
      · norm_num
      · norm_num
      · norm_num
      · exact prime_44706919)
    (by decide +kernel)

theorem prime_545358713 : Nat.Prime 545358713 :=
  prime_of_lucasCheck 5 30 [2, 2, 2, 41, 59, 28181]
    (by
      intro q hq
      simp only [List.mem_cons, List.not_mem_nil, or_false] at hq
      rcases hq with rfl | rfl | rfl | rfl | rfl | rfl
      · norm_num
      · norm_num
      · norm_num
      · norm_num
      · norm_num
      · norm_num)
    (by decide +kernel)

theorem prime_1627771 : Nat.Prime 1627771 :=
  prime_of_lucasCheck 3 21 [2, 3, 5, 29, 1871]
    (by
      intro q hq
      simp only [List.mem_cons, List.not_mem_nil, or_false] at hq
      rcases hq with rfl | rfl | rfl | rfl | rfl
      · norm_num
      · norm_num
      · norm_num
      · norm_num
      · norm_num)
    (by decide +kernel)

theorem prime_297159362677 : Nat.Prime 297159362677 :=
  prime_of_lucasCheck 2 39 [2, 2, 3, 3, 11, 461, 1627771]
    (by
      intro q hq
      simp only [List.mem_cons, List.not_mem_nil, or_false] at hq
      rcases hq with rfl | rfl | rfl | rfl | rfl | rfl | rfl
      · norm_num
      · norm_num
      · norm_num
      · norm_num
      · norm_num
      · norm_num
      · exact prime_1627771)
    (by decide +kernel)

theorem prime_29047611873442575647497758179 : Nat.Prime 29047611873442575647497758179 :=
  prime_of_lucasCheck 2 95 [2, 293, 305873, 545358713, 297159362677]
    (by
      intro q hq
      simp only [List.mem_cons, List.not_mem_nil, or_false] at hq
      rcases hq with rfl | rfl | rfl | rfl | rfl
      · norm_num
      · norm_num
      · norm_num
      · exact prime_545358713
      · exact prime_297159362677)
    (by decide +kernel)

theorem prime_341948486974166000522343609283189 : Nat.Prime 341948486974166000522343609283189 :=
  prime_of_lucasCheck 2 109 [2, 2, 3, 3, 3, 109, 29047611873442575647497758179]
    (by
      intro q hq
      simp only [List.mem_cons, List.not_mem_nil, or_false] at hq
      rcases hq with rfl | rfl | rfl | rfl | rfl | rfl | rfl
      · norm_num
      · norm_num
      · norm_num
      · norm_num
      · norm_num
      · norm_num
      · exact prime_29047611873442575647497758179)
    (by decide +kernel)

/-- The order of secp256k1. -/
theorem secpOrder_prime : Nat.Prime 115792089237316195423570985008687907852837564279074904382605163141518161494337 :=
  prime_of_lucasCheck 7 256 [2, 2, 2, 2, 2, 2, 3, 149, 631, 107361793816595537, 174723607534414371449, 341948486974166000522343609283189]
    (by
      intro q hq
      simp only [List.mem_cons, List.not_mem_nil, or_false] at hq
      rcases hq with rfl | rfl | rfl | rfl | rfl | rfl | rfl | rfl | rfl | rfl | rfl | rfl
      · norm_num
      · norm_num
      · norm_num
      · norm_num
      · norm_num
      · norm_num
      · norm_num
      · norm_num
      · norm_num
      · exact prime_107361793816595537
      · exact prime_174723607534414371449
      · exact prime_341948486974166000522343609283189)
    (by decide +kernel)

theorem prime_1923133 : Nat.Prime 1923133 :=
  prime_of_lucasCheck 2 21 [2, 2, 3, 43, 3727]
    (by
      intro q hq
      simp only [List.mem_cons, List.not_mem_nil, or_false] at hq
      rcases hq with rfl | rfl | rfl | rfl | rfl
      · norm_num
      · norm_num
      · norm_num
      · norm_num
      · norm_num)
    (by decide +kernel)

theorem prime_31757755568855353 : Nat.Prime 31757755568855353 :=
  prime_of_lucasCheck 10 55 [2, 2, 2, 3, 31, 107, 223, 4153, 430751]
    (by
      intro q hq
      simp only [List.mem_cons, List.not_mem_nil, or_false] at hq
      rcases hq with rfl | rfl | rfl | rfl | rfl | rfl | rfl | rfl | rfl
      · norm_num
      · norm_num
      · norm_num
      · norm_num
      · norm_num
      · norm_num
      · norm_num
      · norm_num
      · norm_num)
    (by decide +kernel)

theorem prime_2773320623 : Nat.Prime 2773320623 :=
  prime_of_lucasCheck 5 32 [2, 2437, 569003]
    (by
      intro q hq
      simp only [List.mem_cons, List.not_mem_nil, or_false] at hq
      rcases hq with rfl | rfl | rfl
      · norm_num
      · norm_num
      · norm_num)
    (by decide +kernel)

theorem prime_72106336199 : Nat.Prime 72106336199 :=
  prime_of_lucasCheck 7 37 [2, 13, 2773320623]
    (by
      intro q hq
      simp only [List.mem_cons, List.not_mem_nil, or_false] at hq
      rcases hq with rfl | rfl | rfl
      · norm_num
      · norm_num
      · exact prime_2773320623)
    (by decide +kernel)

theorem prime_8574133 : Nat.Prime 8574133 :=
  prime_of_lucasCheck 2 24 [2, 2, 3, 7, 103, 991]
    (by
      intro q hq
      simp only [List.mem_cons, List.not_mem_nil, or_false] at hq
      rcases hq with rfl | rfl | rfl | rfl | rfl | rfl
      · norm_num
      · norm_num
      · norm_num
      · norm_num
      · norm_num
      · norm_num)
    (by decide +kernel)

theorem prime_1919519569386763 : Nat.Prime 1919519569386763 :=
  prime_of_lucasCheck 2 51 [2, 3, 7, 19, 47, 47, 127, 8574133]
    (by
      intro q hq
      simp only [List.mem_cons, List.not_mem_nil, or_false] at hq
      rcases hq with rfl | rfl | rfl | rfl | rfl | rfl | rfl | rfl
      · norm_num
      · norm_num
      · norm_num
      · norm_num
      · norm_num
      · norm_num
      · norm_num
      · exact prime_8574133)
    (by decide +kernel)

theorem prime_75445702479781427272750846543864801 : Nat.Prime 75445702479781427272750846543864801 :=
  prime_of_lucasCheck 7 116 [2, 2, 2, 2, 2, 3, 3, 5, 5, 75707, 72106336199, 1919519569386763]
    (by
      intro q hq
      simp only [List.mem_cons, List.not_mem_nil, or_false] at hq
      rcases hq with rfl | rfl | rfl | rfl | rfl | rfl | rfl | rfl | rfl | rfl | rfl | rfl
      · norm_num
      · norm_num
      · norm_num
      · norm_num
      · norm_num
      · norm_num
      · norm_num
      · norm_num
      · norm_num
      · norm_num
      · exact prime_72106336199
      · exact prime_1919519569386763)
    (by decide +kernel)

theorem prime_74058212732561358302231226437062788676166966415465897661863160754340907 : Nat.Prime 74058212732561358302231226437062788676166966415465897661863160754340907 :=
  prime_of_lucasCheck 2 236 [2, 3, 353, 57467, 132049, 1923133, 31757755568855353, 75445702479781427272750846543864801]
    (by
      intro q hq
      simp only [List.mem_cons, List.not_mem_nil, or_false] at hq
      rcases hq with rfl | rfl | rfl | rfl | rfl | rfl | rfl | rfl
      · norm_num
      · norm_num
      · norm_num
      · norm_num
      · norm_num
      · exact prime_1923133
      · exact prime_31757755568855353
      · exact prime_75445702479781427272750846543864801)
    (by decide +kernel)

/-- `2^255 - 19`, the base field of Curve25519. -/
theorem edField_prime : Nat.Prime 57896044618658097711785492504343953926634992332820282019728792003956564819949 :=
  prime_of_lucasCheck 2 255 [2, 2, 3, 65147, 74058212732561358302231226437062788676166966415465897661863160754340907]
    (by
      intro q hq
      simp only [List.mem_cons, List.not_mem_nil, or_false] at hq
      rcases hq with rfl | rfl | rfl | rfl | rfl
      · norm_num
      · norm_num
      · norm_num
      · norm_num
      · exact prime_74058212732561358302231226437062788676166966415465897661863160754340907)
    (by decide +kernel)

theorem prime_14741173 : Nat.Prime 14741173 :=
  prime_of_lucasCheck 2 24 [2, 2, 3, 3, 409477]
    (by
      intro q hq
      simp only [List.mem_cons, List.not_mem_nil, or_false] at hq
      rcases hq with rfl | rfl | rfl | rfl | rfl
      · norm_num
      · norm_num
      · norm_num
      · norm_num
      · norm_num)
    (by decide +kernel)

theorem prime_58964693 : Nat.Prime 58964693 :=
  prime_of_lucasCheck 2 26 [2, 2, 14741173]
    (by
      intro q hq
      simp only [List.mem_cons, List.not_mem_nil, or_false] at hq
      rcases hq with rfl | rfl | rfl
      · norm_num
      · norm_num
      · exact prime_14741173)
    (by decide +kernel)

theorem prime_3044861653679985063343 : Nat.Prime 3044861653679985063343 :=
  prime_of_lucasCheck 5 72 [2, 3, 11, 30703, 82163, 132667, 137849]
    (by
      intro q hq
      simp only [List.mem_cons, List.not_mem_nil, or_false] at hq
      rcases hq with rfl | rfl | rfl | rfl | rfl | rfl | rfl
      · norm_num
      · norm_num
      · norm_num
      · norm_num
      · norm_num
      · norm_num
      · norm_num)
    (by decide +kernel)

theorem prime_198211423230930754013084525763697 : Nat.Prime 198211423230930754013084525763697 :=
  prime_of_lucasCheck 5 108 [2, 2, 2, 2, 3, 23, 58964693, 3044861653679985063343]
    (by
      intro q hq
      simp only [List.mem_cons, List.not_mem_nil, or_false] at hq
      rcases hq with rfl | rfl | rfl | rfl | rfl | rfl | rfl | rfl
      · norm_num
      · norm_num
      · norm_num
      · norm_num
      · norm_num
      · norm_num
      · exact prime_58964693
      · exact prime_3044861653679985063343)
    (by decide +kernel)

theorem prime_292386187 : Nat.Prime 292386187 :=
  prime_of_lucasCheck 2 29 [2, 3, 3, 3, 3, 307, 5879]
    (by
      intro q hq
      simp only [List.mem_cons, List.not_mem_nil, or_false] at hq
      rcases hq with rfl | rfl | rfl | rfl | rfl | rfl | rfl
      · norm_num
      · norm_num
      · norm_num
      · norm_num
      · norm_num
      · norm_num
      · norm_num)
    (by decide +kernel)

theorem prime_213441916511 : Nat.Prime 213441916511 :=
  prime_of_lucasCheck 13 38 [2, 5, 73, 292386187]
    (by
      intro q hq
      simp only [List.mem_cons, List.not_mem_nil, or_false] at hq
      rcases hq with rfl | rfl | rfl | rfl
      · norm_num
      · norm_num
      · norm_num
      · exact prime_292386187)
    (by decide +kernel)

theorem prime_1224481 : Nat.Prime 1224481 :=
  prime_of_lucasCheck 13 21 [2, 2, 2, 2, 2, 3, 5, 2551]
    (by
      intro q hq
      simp only [List.mem_cons, List.not_mem_nil, or_false] at hq
      rcases hq with rfl | rfl | rfl | rfl | rfl | rfl | rfl | rfl
      · norm_num
      · norm_num
      · norm_num
      · norm_num
      · norm_num
      · norm_num
      · norm_num
      · norm_num)
    (by decide +kernel)

theorem prime_1257559732178653 : Nat.Prime 1257559732178653 :=
  prime_of_lucasCheck 2 51 [2, 2, 3, 7, 23, 531581, 1224481]
    (by
      intro q hq
      simp only [List.mem_cons, List.not_mem_nil, or_false] at hq
      rcases hq with rfl | rfl | rfl | rfl | rfl | rfl | rfl
      · norm_num
      · norm_num
      · norm_num
      · norm_num
      · norm_num
      · norm_num
      · exact prime_1224481)
    (by decide +kernel)

theorem prime_4434155615661930479 : Nat.Prime 4434155615661930479 :=
  prime_of_lucasCheck 17 62 [2, 41, 43, 1257559732178653]
    (by
      intro q hq
      simp only [List.mem_cons, List.not_mem_nil, or_false] at hq
      rcases hq with rfl | rfl | rfl | rfl
      · norm_num
      · norm_num
      · norm_num
      · exact prime_1257559732178653)
    (by decide +kernel)

theorem prime_172054593956031949258510691 : Nat.Prime 172054593956031949258510691 :=
  prime_of_lucasCheck 2 88 [2, 5, 1361, 2851, 4434155615661930479]
    (by
      intro q hq
      simp only [List.mem_cons, List.not_mem_nil, or_false] at hq
      rcases hq with rfl | rfl | rfl | rfl | rfl
      · norm_num
      · norm_num
      · norm_num
      · norm_num
      · exact prime_4434155615661930479)
    (by decide +kernel)

theorem prime_19757330305831588566944191468367130476339 : Nat.Prime 19757330305831588566944191468367130476339 :=
  prime_of_lucasCheck 2 134 [2, 269, 213441916511, 172054593956031949258510691]
    (by
      intro q hq
      simp only [List.mem_cons, List.not_mem_nil, or_false] at hq
      rcases hq with rfl | rfl | rfl | rfl
      · norm_num
      · norm_num
      · exact prime_213441916511
      · exact prime_172054593956031949258510691)
    (by decide +kernel)

theorem prime_276602624281642239937218680557139826668747 : Nat.Prime 276602624281642239937218680557139826668747 :=
  prime_of_lucasCheck 2 138 [2, 7, 19757330305831588566944191468367130476339]
    (by
      intro q hq
      simp only [List.mem_cons, List.not_mem_nil, or_false] at hq
      rcases hq with rfl | rfl | rfl
      · norm_num
      · norm_num
      · exact prime_19757330305831588566944191468367130476339)
    (by decide +kernel)

/-- `2^252 + 27742317777372353535851937790883648493`, the order of the subgroup of Curve25519. -/
theorem edOrder_prime : Nat.Prime 7237005577332262213973186563042994240857116359379907606001950938285454250989 :=
  prime_of_lucasCheck 2 253 [2, 2, 3, 11, 198211423230930754013084525763697, 276602624281642239937218680557139826668747]
    (by
      intro q hq
      simp only [List.mem_cons, List.not_mem_nil, or_false] at hq
      rcases hq with rfl | rfl | rfl | rfl | rfl | rfl
      · norm_num
      · norm_num
      · norm_num
      · norm_num
      · exact prime_198211423230930754013084525763697
      · exact prime_276602624281642239937218680557139826668747)
    (by decide +kernel)

end ElasticElgamal.Curves
