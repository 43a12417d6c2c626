import Verif.Lemmas.RingUnique
import Verif.Props.Unique

/-!
# C96: the part of a ring proof that its hashed data determine
-/

set_option autoImplicit false
set_option linter.unusedSectionVars false

namespace ElasticElgamal

open Spec Toy

variable {F E : Type} [Field F] [AddCommGroup E] [Module F E] [DecidableEq F] [DecidableEq E]

/-- C96, ring proofs: for given rings and context, the data hashed last and all responses except the last one of each ring
determine the proof. -/
theorem C96_ring_last_unique (B : Backend F E) (hB : B.Lawful) (p₁ p₂ : RingProof F) (K : PublicKey E)
    (values : List (List E)) (cts : List (Ciphertext E)) (hl : values.length ≤ cts.length) (t t' : Transcript)
    (h₁ : p₁.verify B K values cts t = some (.ok (), t')) (h₂ : p₂.verify B K values cts t = some (.ok (), t'))
    (hr : withoutLast values p₁.ringResponses = withoutLast values p₂.ringResponses) : p₁ = p₂ := by
  have e1 := RingProof.verify_ok_length h₁
  have e2 := RingProof.verify_ok_length h₂
  obtain ⟨w, hw, hlog, hc⟩ := (RingProof.verify_eq_some e1).mp h₁
  obtain ⟨w', hw', hlog', hc'⟩ := (RingProof.verify_eq_some e2).mp h₂
  have hcc : p₁.commonChallenge = p₂.commonChallenge :=
    (checkChallenge_ok.mp hc.symm).symm.trans (checkChallenge_ok.mp hc'.symm)
  have hww : w = w' := transcript_ext (List.append_cancel_right (hlog.symm.trans hlog'))
  subst hww
  have hmap : (values.zip cts).map Prod.fst = values := List.map_fst_zip hl
  have := verifyLoop_unique hB hcc (e1.trans e2.symm) (values.zip cts) 0 0 _ w
    (by rw [Nat.zero_add, e1]; nth_rewrite 2 [← hmap]; rw [List.map_map]; rfl) (by simpa [hmap] using hr) hw hw'
  cases p₁; cases p₂
  simp only [RingProof.mk.injEq]
  exact ⟨hcc, this⟩

-- the hash function is constant, so that any responses are accepted, but with different hashed data
example (p : RingProof (ZMod 101))
    (h : p.verify (B101.withHash fun _ => 7) ⟨[42], 42⟩ [[0, 1], [0, 1, 2]] [⟨5, 9⟩, ⟨1, 44⟩] (Transcript.new "x") =
      (⟨7, [3, 4, 1, 2, 8]⟩ : RingProof (ZMod 101)).verify (B101.withHash fun _ => 7) ⟨[42], 42⟩ [[0, 1], [0, 1, 2]]
        [⟨5, 9⟩, ⟨1, 44⟩] (Transcript.new "x"))
    (hp : withoutLast [[(0 : ZMod 101), 1], [0, 1, 2]] p.ringResponses = [[3], [1, 2]]) : p = ⟨7, [3, 4, 1, 2, 8]⟩ :=
  C96_ring_last_unique (B101.withHash fun _ => 7) (B101_lawful.withHash _) p ⟨7, [3, 4, 1, 2, 8]⟩ ⟨[42], 42⟩
    [[0, 1], [0, 1, 2]] [⟨5, 9⟩, ⟨1, 44⟩] (by decide) (Transcript.new "x") _ (h.trans rfl) rfl hp

end ElasticElgamal
