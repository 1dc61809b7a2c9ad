import Verif.Core.Mem
import Mathlib.Data.Rat.Cast.Defs

/-!
# The tables of the fast multipole transforms

`/repo/src/fmm_source.c` lines 82-205, as they are in the source.  Every entry is a multiple of `2^-17`, so that the decimals are the values of the entries.
-/

namespace FT.Model.Lc

/-- `BMe`, lines 84-141. -/
def BMe : List ℚ :=
  [1.0000000000000000e+00, -5.0000000000000000e-01, 5.0000000000000000e-01, -2.5000000000000000e-01, -1.0000000000000000e+00, 2.5000000000000000e-01,
   2.5000000000000000e-01, 3.7500000000000000e-01, -7.5000000000000000e-01, 1.2500000000000000e-01, 1.8750000000000000e-01, 5.0000000000000000e-01,
   7.5000000000000000e-01, -5.0000000000000000e-01, 6.2500000000000000e-02, -1.8750000000000000e-01, -3.1250000000000000e-01, 0.0000000000000000e+00,
   7.8125000000000000e-01, -3.1250000000000000e-01, 3.1250000000000000e-02, -1.5625000000000000e-01, -3.7500000000000000e-01, -5.1562500000000000e-01,
   -4.3750000000000000e-01, 6.5625000000000000e-01, -1.8750000000000000e-01, 1.5625000000000000e-02, 1.5625000000000000e-01, 2.7343750000000000e-01,
   1.0937500000000000e-01, -2.7343750000000000e-01, -6.5625000000000000e-01, 4.9218750000000000e-01, -1.0937500000000000e-01, 7.8125000000000000e-03,
   1.3671875000000000e-01, 3.1250000000000000e-01, 4.0625000000000000e-01, 4.3750000000000000e-01, 1.0937500000000000e-01, -6.8750000000000000e-01,
   3.4375000000000000e-01, -6.2500000000000000e-02, 3.9062500000000000e-03, -1.3671875000000000e-01, -2.4609375000000000e-01, -1.4062500000000000e-01,
   9.3750000000000000e-02, 4.2187500000000000e-01, 4.2187500000000000e-01, -6.0937500000000000e-01, 2.2851562500000000e-01, -3.5156250000000000e-02,
   1.9531250000000000e-03, -1.2304687500000000e-01, -2.7343750000000000e-01, -3.4179687500000000e-01, -3.9062500000000000e-01, -2.7343750000000000e-01,
   1.7187500000000000e-01, 5.9082031250000000e-01, -4.8828125000000000e-01, 1.4648437500000000e-01, -1.9531250000000000e-02, 9.7656250000000000e-04,
   1.2304687500000000e-01, 2.2558593750000000e-01, 1.5039062500000000e-01, -1.0742187500000000e-02, -2.5781250000000000e-01, -4.3505859375000000e-01,
   -1.3964843750000000e-01, 6.2841796875000000e-01, -3.6523437500000000e-01, 9.1308593750000000e-02, -1.0742187500000000e-02, 4.8828125000000000e-04,
   1.1279296875000000e-01, 2.4609375000000000e-01, 2.9882812500000000e-01, 3.4765625000000000e-01, 3.0834960937500000e-01, 6.4453125000000000e-02,
   -3.5449218750000000e-01, -3.9257812500000000e-01, 5.7861328125000000e-01, -2.5976562500000000e-01, 5.5664062500000000e-02, -5.8593750000000000e-03,
   2.4414062500000000e-04, -1.1279296875000000e-01, -2.0947265625000000e-01, -1.5234375000000000e-01, -3.3325195312500000e-02, 1.5551757812500000e-01,
   3.4753417968750000e-01, 3.3007812500000000e-01, -1.2377929687500000e-01, -5.3955078125000000e-01, 4.8559570312500000e-01, -1.7773437500000000e-01,
   3.3325195312500000e-02, -3.1738281250000000e-03, 1.2207031250000000e-04, -1.0473632812500000e-01, -2.2558593750000000e-01, -2.6788330078125000e-01,
   -3.1274414062500000e-01, -3.0676269531250000e-01, -1.6918945312500000e-01, 1.3629150390625000e-01, 4.1162109375000000e-01, 1.4184570312500000e-01,
   -5.8447265625000000e-01, 3.8153076171875000e-01, -1.1791992187500000e-01, 1.9653320312500000e-02, -1.7089843750000000e-03, 6.1035156250000000e-05,
   1.0473632812500000e-01, 1.9638061523437500e-01, 1.5106201171875000e-01, 5.8746337890625000e-02, -8.9721679687500000e-02, -2.6358032226562500e-01,
   -3.4515380859375000e-01, -1.4877319335937500e-01, 3.1127929687500000e-01, 3.6056518554687500e-01, -5.5499267578125000e-01, 2.8518676757812500e-01,
   -7.6293945312500000e-02, 1.1444091796875000e-02, -9.1552734375000000e-04, 3.0517578125000000e-05, 9.8190307617187500e-02, 2.0947265625000000e-01,
   2.4438476562500000e-01, 2.8466796875000000e-01, 2.9406738281250000e-01, 2.1533203125000000e-01, 2.6855468750000000e-03, -2.7978515625000000e-01,
   -3.4722900390625000e-01, 1.0205078125000000e-01, 4.9633789062500000e-01, -4.8291015625000000e-01, 2.0495605468750000e-01, -4.8339843750000000e-02,
   6.5917968750000000e-03, -4.8828125000000000e-04, 1.5258789062500000e-05, -9.8190307617187500e-02, -1.8547058105468750e-01, -1.4837646484375000e-01,
   -7.4188232421875000e-02, 4.5654296875000000e-02, 1.9662475585937500e-01, 3.1024169921875000e-01, 2.5628662109375000e-01, -5.2917480468750000e-02,
   -3.8806152343750000e-01, -1.3177490234375000e-01, 5.4837036132812500e-01, -3.9428710937500000e-01, 1.4266967773437500e-01, -3.0090332031250000e-02,
   3.7612915039062500e-03, -2.5939941406250000e-04, 7.6293945312500000e-06]

/-- `BMeT`, lines 143-205. -/
def BMeT : List ℚ :=
  [1.0000000000000000e+00, -5.0000000000000000e-01, -2.5000000000000000e-01, 2.5000000000000000e-01, 1.8750000000000000e-01, -1.8750000000000000e-01,
   -1.5625000000000000e-01, 1.5625000000000000e-01, 1.3671875000000000e-01, -1.3671875000000000e-01, -1.2304687500000000e-01, 1.2304687500000000e-01,
   1.1279296875000000e-01, -1.1279296875000000e-01, -1.0473632812500000e-01, 1.0473632812500000e-01, 9.8190307617187500e-02, -9.8190307617187500e-02,
   5.0000000000000000e-01, -1.0000000000000000e+00, 3.7500000000000000e-01, 5.0000000000000000e-01, -3.1250000000000000e-01, -3.7500000000000000e-01,
   2.7343750000000000e-01, 3.1250000000000000e-01, -2.4609375000000000e-01, -2.7343750000000000e-01, 2.2558593750000000e-01, 2.4609375000000000e-01,
   -2.0947265625000000e-01, -2.2558593750000000e-01, 1.9638061523437500e-01, 2.0947265625000000e-01, -1.8547058105468750e-01, 2.5000000000000000e-01,
   -7.5000000000000000e-01, 7.5000000000000000e-01, 0.0000000000000000e+00, -5.1562500000000000e-01, 1.0937500000000000e-01, 4.0625000000000000e-01,
   -1.4062500000000000e-01, -3.4179687500000000e-01, 1.5039062500000000e-01, 2.9882812500000000e-01, -1.5234375000000000e-01, -2.6788330078125000e-01,
   1.5106201171875000e-01, 2.4438476562500000e-01, -1.4837646484375000e-01, 1.2500000000000000e-01, -5.0000000000000000e-01, 7.8125000000000000e-01,
   -4.3750000000000000e-01, -2.7343750000000000e-01, 4.3750000000000000e-01, 9.3750000000000000e-02, -3.9062500000000000e-01, -1.0742187500000000e-02,
   3.4765625000000000e-01, -3.3325195312500000e-02, -3.1274414062500000e-01, 5.8746337890625000e-02, 2.8466796875000000e-01, -7.4188232421875000e-02,
   6.2500000000000000e-02, -3.1250000000000000e-01, 6.5625000000000000e-01, -6.5625000000000000e-01, 1.0937500000000000e-01, 4.2187500000000000e-01,
   -2.7343750000000000e-01, -2.5781250000000000e-01, 3.0834960937500000e-01, 1.5551757812500000e-01, -3.0676269531250000e-01, -8.9721679687500000e-02,
   2.9406738281250000e-01, 4.5654296875000000e-02, 3.1250000000000000e-02, -1.8750000000000000e-01, 4.9218750000000000e-01, -6.8750000000000000e-01,
   4.2187500000000000e-01, 1.7187500000000000e-01, -4.3505859375000000e-01, 6.4453125000000000e-02, 3.4753417968750000e-01, -1.6918945312500000e-01,
   -2.6358032226562500e-01, 2.1533203125000000e-01, 1.9662475585937500e-01, 1.5625000000000000e-02, -1.0937500000000000e-01, 3.4375000000000000e-01,
   -6.0937500000000000e-01, 5.9082031250000000e-01, -1.3964843750000000e-01, -3.5449218750000000e-01, 3.3007812500000000e-01, 1.3629150390625000e-01,
   -3.4515380859375000e-01, 2.6855468750000000e-03, 3.1024169921875000e-01, 7.8125000000000000e-03, -6.2500000000000000e-02, 2.2851562500000000e-01,
   -4.8828125000000000e-01, 6.2841796875000000e-01, -3.9257812500000000e-01, -1.2377929687500000e-01, 4.1162109375000000e-01, -1.4877319335937500e-01,
   -2.7978515625000000e-01, 2.5628662109375000e-01, 3.9062500000000000e-03, -3.5156250000000000e-02, 1.4648437500000000e-01, -3.6523437500000000e-01,
   5.7861328125000000e-01, -5.3955078125000000e-01, 1.4184570312500000e-01, 3.1127929687500000e-01, -3.4722900390625000e-01, -5.2917480468750000e-02,
   1.9531250000000000e-03, -1.9531250000000000e-02, 9.1308593750000000e-02, -2.5976562500000000e-01, 4.8559570312500000e-01, -5.8447265625000000e-01,
   3.6056518554687500e-01, 1.0205078125000000e-01, -3.8806152343750000e-01, 9.7656250000000000e-04, -1.0742187500000000e-02, 5.5664062500000000e-02,
   -1.7773437500000000e-01, 3.8153076171875000e-01, -5.5499267578125000e-01, 4.9633789062500000e-01, -1.3177490234375000e-01, 4.8828125000000000e-04,
   -5.8593750000000000e-03, 3.3325195312500000e-02, -1.1791992187500000e-01, 2.8518676757812500e-01, -4.8291015625000000e-01, 5.4837036132812500e-01,
   2.4414062500000000e-04, -3.1738281250000000e-03, 1.9653320312500000e-02, -7.6293945312500000e-02, 2.0495605468750000e-01, -3.9428710937500000e-01,
   1.2207031250000000e-04, -1.7089843750000000e-03, 1.1444091796875000e-02, -4.8339843750000000e-02, 1.4266967773437500e-01, 6.1035156250000000e-05,
   -9.1552734375000000e-04, 6.5917968750000000e-03, -3.0090332031250000e-02, 3.0517578125000000e-05, -4.8828125000000000e-04, 3.7612915039062500e-03,
   1.5258789062500000e-05, -2.5939941406250000e-04, 7.6293945312500000e-06]

variable {K : Type*} [Field K]

/-- The array `BMe`. -/
def tabB : Buf K := ⟨171, fun i => ((BMe.getD i.toNat 0 : ℚ) : K)⟩

/-- The array `BMeT`. -/
def tabBT : Buf K := ⟨171, fun i => ((BMeT.getD i.toNat 0 : ℚ) : K)⟩

end FT.Model.Lc
