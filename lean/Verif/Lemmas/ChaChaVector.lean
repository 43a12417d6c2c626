import Verif.Model.Primitives.ChaCha

/-!
# The block of `ChaChaRng` for the zero key

The kernel evaluates the block one double round at a time. The theorems about random scalars need a seed for which the
first attempt succeeds.
-/

set_option autoImplicit false

namespace ElasticElgamal.ChaCha

private theorem round0 : doubleRound #[1634760805, 857760878, 2036477234, 1797285236, 0, 0, 0, 0,
    0, 0, 0, 0, 0, 0, 0, 0] =
    #[3831485001, 465051814, 3810167018, 3865553406, 708572787, 2260680856, 1175146506, 4195784838,
    1401801230, 205755969, 16389820, 2315813162, 1807715081, 3274707926, 3147798601, 2277908837] := by decide +kernel

private theorem round1 : doubleRound #[3831485001, 465051814, 3810167018, 3865553406, 708572787, 2260680856, 1175146506, 4195784838,
    1401801230, 205755969, 16389820, 2315813162, 1807715081, 3274707926, 3147798601, 2277908837] =
    #[2987265446, 555851331, 2043056534, 2394542343, 683648334, 243939487, 2031723700, 842999353,
    1769110809, 317167340, 3515309448, 1613476332, 1612483213, 416233319, 1624313532, 397031114] := by decide +kernel

private theorem round2 : doubleRound #[2987265446, 555851331, 2043056534, 2394542343, 683648334, 243939487, 2031723700, 842999353,
    1769110809, 317167340, 3515309448, 1613476332, 1612483213, 416233319, 1624313532, 397031114] =
    #[42443425, 3537648111, 4075615518, 3280431870, 2457253921, 936163239, 535217241, 3858322967,
    3618735395, 2694131698, 320827381, 1865984460, 1547860575, 496143739, 4107449562, 442763396] := by decide +kernel

private theorem round3 : doubleRound #[42443425, 3537648111, 4075615518, 3280431870, 2457253921, 936163239, 535217241, 3858322967,
    3618735395, 2694131698, 320827381, 1865984460, 1547860575, 496143739, 4107449562, 442763396] =
    #[3464398809, 2736782107, 1867918925, 914662315, 3272508460, 998218446, 2296453912, 505049583,
    1927367832, 1097802169, 1733510303, 425094469, 2739030577, 28346074, 3103619896, 1123945486] := by decide +kernel

private theorem round4 : doubleRound #[3464398809, 2736782107, 1867918925, 914662315, 3272508460, 998218446, 2296453912, 505049583,
    1927367832, 1097802169, 1733510303, 425094469, 2739030577, 28346074, 3103619896, 1123945486] =
    #[1308838156, 2549006073, 4135762692, 793240496, 1354003995, 3934035184, 3013862787, 3854227624,
    1335860601, 1156916115, 2881466214, 1593652346, 2985647285, 85002989, 1444698375, 3558679988] := by decide +kernel

private theorem round5 : doubleRound #[1308838156, 2549006073, 4135762692, 793240496, 1354003995, 3934035184, 3013862787, 3854227624,
    1335860601, 1156916115, 2881466214, 1593652346, 2985647285, 85002989, 1444698375, 3558679988] =
    #[153779254, 551088281, 2573988431, 1784856811, 3150129412, 343203913, 2777219198, 1595256366,
    2046321669, 3236133586, 875096108, 2039282348, 748642874, 426368672, 803736417, 3190166337] := by decide +kernel

private theorem round6 : doubleRound #[153779254, 551088281, 2573988431, 1784856811, 3150129412, 343203913, 2777219198, 1595256366,
    2046321669, 3236133586, 875096108, 2039282348, 748642874, 426368672, 803736417, 3190166337] =
    #[1843350424, 1608384784, 3655185970, 1947739403, 3718507033, 1188705781, 838547146, 1894081315,
    1188398960, 3234391270, 3125483095, 3295685470, 2940917475, 3868489986, 646047163, 674516562] := by decide +kernel

private theorem round7 : doubleRound #[1843350424, 1608384784, 3655185970, 1947739403, 3718507033, 1188705781, 838547146, 1894081315,
    1188398960, 3234391270, 3125483095, 3295685470, 2940917475, 3868489986, 646047163, 674516562] =
    #[4142613381, 256929999, 2185938132, 4278346116, 1910216669, 1624086861, 2910867510, 2312475086,
    2656191475, 382791205, 2196319126, 3503982164, 1805033478, 1199192055, 3527735948, 2991348835] := by decide +kernel

private theorem round8 : doubleRound #[4142613381, 256929999, 2185938132, 4278346116, 1910216669, 1624086861, 2910867510, 2312475086,
    2656191475, 382791205, 2196319126, 3503982164, 1805033478, 1199192055, 3527735948, 2991348835] =
    #[172609723, 4252221419, 3259208404, 3775952493, 2081980761, 957320013, 170075935, 235214466,
    1531487041, 140632055, 1563676091, 399783725, 3319306763, 2649833516, 2961880544, 2236122496] := by decide +kernel

private theorem round9 : doubleRound #[172609723, 4252221419, 3259208404, 3775952493, 2081980761, 957320013, 170075935, 235214466,
    1531487041, 140632055, 1563676091, 399783725, 3319306763, 2649833516, 2961880544, 2236122496] =
    #[1282424849, 1562217778, 1812475918, 3181191391, 3088700093, 451775904, 3438229160, 3339548555,
    2086224346, 2370328401, 1071654007, 927652024, 4105716586, 480319509, 1773569987, 2254827186] := by decide +kernel

private theorem start : initialState (List.replicate 32 0) 0 =
    #[1634760805, 857760878, 2036477234, 1797285236, 0, 0, 0, 0,
    0, 0, 0, 0, 0, 0, 0, 0] := by decide +kernel

private theorem final : Nat.repeat doubleRound 10
    #[1634760805, 857760878, 2036477234, 1797285236, 0, 0, 0, 0,
    0, 0, 0, 0, 0, 0, 0, 0] =
    #[1282424849, 1562217778, 1812475918, 3181191391, 3088700093, 451775904, 3438229160, 3339548555,
    2086224346, 2370328401, 1071654007, 927652024, 4105716586, 480319509, 1773569987, 2254827186] := by
  simp only [Nat.repeat, round0, round1, round2, round3, round4, round5, round6, round7, round8, round9]

/-- The first block for the zero key (test vector 1 in RFC 8439, appendix A.1). -/
theorem block_zero : block (List.replicate 32 0) 0 =
    [118, 184, 224, 173, 160, 241, 61, 144, 64, 93, 106, 229, 83, 134, 189, 40,
    189, 210, 25, 184, 160, 141, 237, 26, 168, 54, 239, 204, 139, 119, 13, 199,
    218, 65, 89, 124, 81, 87, 72, 141, 119, 36, 224, 63, 184, 216, 74, 55,
    106, 67, 184, 244, 21, 24, 161, 28, 195, 135, 182, 105, 178, 238, 101, 134] := by
  rw [block, start]
  dsimp only
  rw [final]
  decide +kernel

end ElasticElgamal.ChaCha
