import Verif.Model.LegCheb

/-!
# Model of the discrete cosine transform of length 18

`/repo/src/fmm_source.c`, lines 203-337.  The decimal constants are parameters; the comments in the code say what they stand for.  Local arrays that are only indexed by constants and loops over
three or nine indices are functions.
-/

namespace FT.Model.Lc
variable {K : Type*} [Field K]

/-- The constants of lines 209-226. -/
structure Trig (K : Type*) where
  sqrt32 : K
  SIN : Int → K
  SIN2 : Int → K
  COS : Int → K
  COS2 : Int → K
  COSH : Int → K

/-- Lines 237 and 273: `f`. -/
def rad3F (z : Int → K) (i : Int) : K := z i + z (5 - i) + z (6 + i)

/-- Lines 243-244 and 286-287: `g`. -/
def rad3G (c : Trig K) (z t : Int → K) (i : Int) : K := t i * c.COS i + (z (5 - i) - z (6 + i)) * c.SIN i
/-- Lines 243-245 and 286-288: `h`. -/
def rad3H (c : Trig K) (z t : Int → K) (i : Int) : K := t i * c.COS2 i - (z (5 - i) - z (6 + i)) * c.SIN2 i

/-- Lines 241-262: nine outputs from the nine values `z` and from `t`; the second time, lines 275-277 and 284-302, the first of them has the factor 0.5, see `oddOut`. -/
def rad3 (c : Trig K) (z t : Int → K) (k : Int) : K :=
  let f := rad3F z
  let g := rad3G c z t
  let h := rad3H c z t
  let B0 := g 0 + g 1 + g 2
  let B1 := c.sqrt32 * (g 0 - g 2)
  let B2 := 1 / 2 * (g 0 + g 2) - g 1
  let C0 := h 0 + h 1 + h 2
  let C1 := c.sqrt32 * (h 0 - h 2)
  let C2 := 1 / 2 * (h 0 + h 2) - h 1
  let o1 := B0 * (1 / 2)
  let o2 := C0 * (1 / 2)
  let o4 := B1 - o2
  let o5 := C1 - o1
  if k = 0 then f 0 + f 1 + f 2
  else if k = 3 then c.sqrt32 * (f 0 - f 2)
  else if k = 6 then 1 / 2 * (f 0 + f 2) - f 1
  else if k = 1 then o1
  else if k = 2 then o2
  else if k = 4 then o4
  else if k = 5 then o5
  else if k = 7 then B2 - o5
  else C2 - o4

/-- Lines 228-232: radix 2, even indices. -/
def foldP (junk : Int → K) (inp : Buf K) (bi st : Int) : Option (Buf K) :=
  forUp 0 9 (fun i z => (inp.rd (bi + i * st)).bind fun x => (inp.rd (bi + (17 - i) * st)).bind fun y => z.wr i (x + y)) ⟨9, junk⟩

/-- Lines 264-268: odd indices. -/
def foldM (c : Trig K) (junk : Int → K) (inp : Buf K) (bi st : Int) : Option (Buf K) :=
  forUp 0 9 (fun i z => (inp.rd (bi + i * st)).bind fun x => (inp.rd (bi + (17 - i) * st)).bind fun y => z.wr i ((x - y) * c.COSH i)) ⟨9, junk⟩

/-- Lines 275 and 304-307: the entries `out[9]`, ..., `out[17]`, from `T`. -/
def oddOut (junk : Int → K) (T : Int → K) : Option (Buf K) :=
  ((⟨9, junk⟩ : Buf K).wr 0 (T 0 * (1 / 2))).bind fun o => forUp 1 9 (fun i o => (o.rd (i - 1)).bind fun x => o.wr i (T i - x)) o

/-- `dct_radix23`, lines 203-314; the array `out` of the code is in two halves. -/
def dctRadix23 (c : Trig K) (junk : Int → K) (inp : Buf K) (bi : Int) (out : Buf K) (bo st : Int) : Option (Buf K) :=
  (foldP junk inp bi st).bind fun z =>
  (foldM c junk inp bi st).bind fun w =>
  (oddOut junk (rad3 c w.val fun i => 3 * w.val i - rad3F w.val i)).bind fun o =>
  forUp 0 9 (fun i out => (out.wr (bo + 2 * i * st) (rad3 c z.val (fun i => 2 * z.val i - z.val (5 - i) - z.val (6 + i)) i)).bind fun out =>
    (o.rd i).bind fun x => out.wr (bo + (2 * i + 1) * st) x) out

/-- `dct2`, lines 316-337. -/
def dct2 (c : Trig K) (junk : Int → K) (inp out : Buf K) (bo : Int) : Option (Buf K) :=
  (forUp 0 18 (fun i tmp => dctRadix23 c junk inp (i * 18) tmp (i * 18) 1) ⟨324, junk⟩).bind fun tmp =>
  (forUp 0 18 (fun i out => dctRadix23 c junk tmp i out (bo + i) 18) out).bind fun out =>
  (forUp 0 324 (fun i out => mulAt out (bo + i) (1 / 81)) out).bind fun out =>
  forUp 0 18 (fun i out => (mulAt out (bo + i) (1 / 2)).bind fun out => mulAt out (bo + i * 18) (1 / 2)) out

end FT.Model.Lc
