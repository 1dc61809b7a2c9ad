import Verif.Lemmas.HeapPlans
/-
Specifications of rotation plans, FFTW plans and the plan for the annulus.
-/
set_option linter.unusedVariables false
namespace FT.Heap

/-- A rotation plan owning `m`. -/
def IsRot (p : Val) (m : Res) : Prop :=
  ∃ i s c ci cs cc, p = .ptr i 0 ∧ m = {(i, ci)} + ({(s, cs)} + {(c, cc)}) ∧ ci.tag = .libc ∧
    cs.tag = .libc ∧ cc.tag = .libc ∧ ci.val (.fld .s) = .ptr s 0 ∧ ci.val (.fld .c) = .ptr c 0

theorem IsRot.intro {h : Heap} {M M1 M2 R : Res} {i s c : Nat} {ci cs cc : Cell} (H : Sat h M)
    (e : M = {(i, ci)} + M1) (t : ci.tag = .libc) (fs : ci.val (.fld .s) = .ptr s 0)
    (es : M1 = {(s, cs)} + M2) (ts : cs.tag = .libc) (fc : ci.val (.fld .c) = .ptr c 0)
    (ec : M2 = {(c, cc)} + R) (tc : cc.tag = .libc) : Own (IsRot (.ptr i 0)) R h :=
  ⟨_, ⟨i, s, c, ci, cs, cc, rfl, rfl, t, ts, tc, fs, fc⟩, H.perm (by rw [e, es, ec]; abel)⟩

theorem destroyRotation_spec {p : Val} {m : Res} (H : IsRot p m) : Destroys destroyRotation p m := by
  intro R h Q S K
  obtain ⟨i, s, c, ci, cs, cc, rfl, rfl, t, ts, tc, fs, fc⟩ := H
  simp only [add_assoc] at S
  unfold destroyRotation
  hss
  exact K _ (by assumption)

theorem makes_planRotation {k n : Int} (h0 : 0 ≤ k) : Makes (planRotation k n) IsRot := by
  intro R h Q S K
  unfold planRotation
  hss
  exact wp_pure (K _ _ (IsRot.intro (by assumption) (by fnd) (by tg) (by getv) (by fnd) (by tg)
    (by getv) (by fnd) (by tg)))

/-- A spin rotation plan owning `m`. -/
def IsSpinRot (p : Val) (m : Res) : Prop :=
  ∃ i s1 c1 s2 c2 ci cs1 cc1 cs2 cc2, p = .ptr i 0 ∧
    m = {(i, ci)} + ({(s1, cs1)} + ({(c1, cc1)} + ({(s2, cs2)} + {(c2, cc2)}))) ∧ ci.tag = .libc ∧
    cs1.tag = .libc ∧ cc1.tag = .libc ∧ cs2.tag = .libc ∧ cc2.tag = .libc ∧
    ci.val (.fld .s1) = .ptr s1 0 ∧ ci.val (.fld .c1) = .ptr c1 0 ∧
    ci.val (.fld .s2) = .ptr s2 0 ∧ ci.val (.fld .c2) = .ptr c2 0

theorem IsSpinRot.intro {h : Heap} {M M1 M2 M3 M4 R : Res} {i s1 c1 s2 c2 : Nat}
    {ci cs1 cc1 cs2 cc2 : Cell} (H : Sat h M)
    (e : M = {(i, ci)} + M1) (t : ci.tag = .libc) (fs1 : ci.val (.fld .s1) = .ptr s1 0)
    (es1 : M1 = {(s1, cs1)} + M2) (ts1 : cs1.tag = .libc) (fc1 : ci.val (.fld .c1) = .ptr c1 0)
    (ec1 : M2 = {(c1, cc1)} + M3) (tc1 : cc1.tag = .libc) (fs2 : ci.val (.fld .s2) = .ptr s2 0)
    (es2 : M3 = {(s2, cs2)} + M4) (ts2 : cs2.tag = .libc) (fc2 : ci.val (.fld .c2) = .ptr c2 0)
    (ec2 : M4 = {(c2, cc2)} + R) (tc2 : cc2.tag = .libc) : Own (IsSpinRot (.ptr i 0)) R h :=
  ⟨_, ⟨i, s1, c1, s2, c2, ci, cs1, cc1, cs2, cc2, rfl, rfl, t, ts1, tc1, ts2, tc2, fs1, fc1, fs2,
    fc2⟩, H.perm (by rw [e, es1, ec1, es2, ec2]; abel)⟩

theorem IsSpinRot.ptr {p : Val} {m : Res} (H : IsSpinRot p m) : ∃ i, p = .ptr i 0 := by
  obtain ⟨i, _, _, _, _, _, _, _, _, _, e, _⟩ := H; exact ⟨i, e⟩

theorem destroySpinRotation_spec {p : Val} {m : Res} (H : IsSpinRot p m) :
    Destroys destroySpinRotation p m := by
  intro R h Q S K
  obtain ⟨i, s1, c1, s2, c2, ci, cs1, cc1, cs2, cc2, rfl, rfl, t, ts1, tc1, ts2, tc2, fs1, fc1, fs2,
    fc2⟩ := H
  simp only [add_assoc] at S
  unfold destroySpinRotation
  hss
  exact K _ (by assumption)

theorem makes_planSpinRotation {n s : Int} (h0 : 0 ≤ n) : Makes (planSpinRotation n s) IsSpinRot := by
  intro R h Q S K
  unfold planSpinRotation
  hss
  exact wp_pure (K _ _ (IsSpinRot.intro (by assumption) (by fnd) (by tg) (by getv) (by fnd) (by tg)
    (by getv) (by fnd) (by tg) (by getv) (by fnd) (by tg) (by getv) (by fnd) (by tg)))

/-! ### FFTW plans -/

/-- An FFTW plan of the triangle or tetrahedron owning `m`. -/
def IsFftw1 (p : Val) (m : Res) : Prop :=
  ∃ i a ci ca, p = .ptr i 0 ∧ m = {(i, ci)} + {(a, ca)} ∧ ci.tag = .libc ∧ ca.tag = .plan ∧
    ci.val (.fld .plan1) = .ptr a 0

theorem IsFftw1.intro {h : Heap} {M M1 R : Res} {i a : Nat} {ci ca : Cell} (H : Sat h M)
    (e : M = {(i, ci)} + M1) (t : ci.tag = .libc) (fa : ci.val (.fld .plan1) = .ptr a 0)
    (ea : M1 = {(a, ca)} + R) (ta : ca.tag = .plan) : Own (IsFftw1 (.ptr i 0)) R h :=
  ⟨_, ⟨i, a, ci, ca, rfl, rfl, t, ta, fa⟩, H.perm (by rw [e, ea]; abel)⟩

theorem destroyFftw1_spec {p : Val} {m : Res} (H : IsFftw1 p m) : Destroys destroyFftw1 p m := by
  intro R h Q S K
  obtain ⟨i, a, ci, ca, rfl, rfl, t, ta, fa⟩ := H
  simp only [add_assoc] at S
  unfold destroyFftw1
  hss
  exact K _ (by assumption)

theorem makes_planFftw1 {k : Int} (h0 : 0 ≤ k) : Makes (planFftw1 k) IsFftw1 := by
  intro R h Q S K
  unfold planFftw1
  hss
  exact wp_pure (K _ _ (IsFftw1.intro (by assumption) (by fnd) (by tg) (by getv) (by fnd) (by tg)))

/-- An FFTW plan of the rectangularised disk owning `m`. -/
def IsFftw3 (p : Val) (m : Res) : Prop :=
  ∃ i a1 a2 a3 ci ca1 ca2 ca3, p = .ptr i 0 ∧
    m = {(i, ci)} + ({(a1, ca1)} + ({(a2, ca2)} + {(a3, ca3)})) ∧ ci.tag = .libc ∧
    ca1.tag = .plan ∧ ca2.tag = .plan ∧ ca3.tag = .plan ∧
    ci.val (.fld .plan1) = .ptr a1 0 ∧ ci.val (.fld .plan2) = .ptr a2 0 ∧
    ci.val (.fld .plan3) = .ptr a3 0

theorem IsFftw3.intro {h : Heap} {M M1 M2 M3 R : Res} {i a1 a2 a3 : Nat} {ci ca1 ca2 ca3 : Cell}
    (H : Sat h M) (e : M = {(i, ci)} + M1) (t : ci.tag = .libc)
    (f1 : ci.val (.fld .plan1) = .ptr a1 0) (e1 : M1 = {(a1, ca1)} + M2) (t1 : ca1.tag = .plan)
    (f2 : ci.val (.fld .plan2) = .ptr a2 0) (e2 : M2 = {(a2, ca2)} + M3) (t2 : ca2.tag = .plan)
    (f3 : ci.val (.fld .plan3) = .ptr a3 0) (e3 : M3 = {(a3, ca3)} + R) (t3 : ca3.tag = .plan) :
    Own (IsFftw3 (.ptr i 0)) R h :=
  ⟨_, ⟨i, a1, a2, a3, ci, ca1, ca2, ca3, rfl, rfl, t, t1, t2, t3, f1, f2, f3⟩,
    H.perm (by rw [e, e1, e2, e3]; abel)⟩

theorem destroyFftw3_spec {p : Val} {m : Res} (H : IsFftw3 p m) : Destroys destroyFftw3 p m := by
  intro R h Q S K
  obtain ⟨i, a1, a2, a3, ci, ca1, ca2, ca3, rfl, rfl, t, t1, t2, t3, f1, f2, f3⟩ := H
  simp only [add_assoc] at S
  unfold destroyFftw3
  hss
  exact K _ (by assumption)

theorem makes_planFftw3 {k : Int} (h0 : 0 ≤ k) : Makes (planFftw3 k) IsFftw3 := by
  intro R h Q S K
  unfold planFftw3
  hss
  exact wp_pure (K _ _ (IsFftw3.intro (by assumption) (by fnd) (by tg) (by getv) (by fnd) (by tg)
    (by getv) (by fnd) (by tg) (by getv) (by fnd) (by tg)))

/-- An FFTW plan of the annulus owning `m`. -/
def IsFftwAnnulus (p : Val) (m : Res) : Prop :=
  ∃ i a1 a2 w y ci ca1 ca2 cw cy, p = .ptr i 0 ∧
    m = {(i, ci)} + ({(a1, ca1)} + ({(a2, ca2)} + ({(w, cw)} + {(y, cy)}))) ∧ ci.tag = .libc ∧
    ca1.tag = .plan ∧ ca2.tag = .plan ∧ cw.tag = .libc ∧ cy.tag = .fftw ∧
    ci.val (.fld .plan1) = .ptr a1 0 ∧ ci.val (.fld .plan2) = .ptr a2 0 ∧
    ci.val (.fld .w) = .ptr w 0 ∧ ci.val (.fld .Y) = .ptr y 0

theorem IsFftwAnnulus.intro {h : Heap} {M M1 M2 M3 M4 R : Res} {i a1 a2 w y : Nat}
    {ci ca1 ca2 cw cy : Cell}
    (H : Sat h M) (e : M = {(i, ci)} + M1) (t : ci.tag = .libc)
    (f1 : ci.val (.fld .plan1) = .ptr a1 0) (e1 : M1 = {(a1, ca1)} + M2) (t1 : ca1.tag = .plan)
    (f2 : ci.val (.fld .plan2) = .ptr a2 0) (e2 : M2 = {(a2, ca2)} + M3) (t2 : ca2.tag = .plan)
    (fw : ci.val (.fld .w) = .ptr w 0) (ew : M3 = {(w, cw)} + M4) (tw : cw.tag = .libc)
    (fy : ci.val (.fld .Y) = .ptr y 0) (ey : M4 = {(y, cy)} + R) (ty : cy.tag = .fftw) :
    Own (IsFftwAnnulus (.ptr i 0)) R h :=
  ⟨_, ⟨i, a1, a2, w, y, ci, ca1, ca2, cw, cy, rfl, rfl, t, t1, t2, tw, ty, f1, f2, fw, fy⟩,
    H.perm (by rw [e, e1, e2, ew, ey]; abel)⟩

theorem destroyFftwAnnulus_spec {p : Val} {m : Res} (H : IsFftwAnnulus p m) :
    Destroys destroyFftwAnnulus p m := by
  intro R h Q S K
  obtain ⟨i, a1, a2, w, y, ci, ca1, ca2, cw, cy, rfl, rfl, t, t1, t2, tw, ty, f1, f2, fw, fy⟩ := H
  simp only [add_assoc] at S
  unfold destroyFftwAnnulus
  hss
  exact K _ (by assumption)

theorem makes_planFftwAnnulus {N k kz : Int} (h0 : 0 ≤ N) (h1 : 0 ≤ k) (h2 : 0 ≤ kz) :
    Makes (planFftwAnnulus N k kz) IsFftwAnnulus := by
  intro R h Q S K
  unfold planFftwAnnulus
  hss
  exact wp_pure (K _ _ (IsFftwAnnulus.intro (by assumption) (by fnd) (by tg) (by getv) (by fnd)
    (by tg) (by getv) (by fnd) (by tg) (by getv) (by fnd) (by tg) (by getv) (by fnd) (by tg)))

/-- An FFTW plan of the sphere, disk or spin-weighted sphere owning `m`. -/
def IsFftw5 (p : Val) (m : Res) : Prop :=
  ∃ i a1 a2 a3 a4 a5 y ci ca1 ca2 ca3 ca4 ca5 cy, p = .ptr i 0 ∧
    m = {(i, ci)} + ({(a1, ca1)} + ({(a2, ca2)} + ({(a3, ca3)} + ({(a4, ca4)} + ({(a5, ca5)} +
      {(y, cy)}))))) ∧ ci.tag = .libc ∧
    ca1.tag = .plan ∧ ca2.tag = .plan ∧ ca3.tag = .plan ∧ ca4.tag = .plan ∧ ca5.tag = .plan ∧
    cy.tag = .fftw ∧
    ci.val (.fld .plan1) = .ptr a1 0 ∧ ci.val (.fld .plan2) = .ptr a2 0 ∧
    ci.val (.fld .plan3) = .ptr a3 0 ∧ ci.val (.fld .plan4) = .ptr a4 0 ∧
    ci.val (.fld .plan5) = .ptr a5 0 ∧ ci.val (.fld .Y) = .ptr y 0

theorem IsFftw5.intro {h : Heap} {M M1 M2 M3 M4 M5 M6 R : Res} {i a1 a2 a3 a4 a5 y : Nat}
    {ci ca1 ca2 ca3 ca4 ca5 cy : Cell}
    (H : Sat h M) (e : M = {(i, ci)} + M1) (t : ci.tag = .libc)
    (f1 : ci.val (.fld .plan1) = .ptr a1 0) (e1 : M1 = {(a1, ca1)} + M2) (t1 : ca1.tag = .plan)
    (f2 : ci.val (.fld .plan2) = .ptr a2 0) (e2 : M2 = {(a2, ca2)} + M3) (t2 : ca2.tag = .plan)
    (f3 : ci.val (.fld .plan3) = .ptr a3 0) (e3 : M3 = {(a3, ca3)} + M4) (t3 : ca3.tag = .plan)
    (f4 : ci.val (.fld .plan4) = .ptr a4 0) (e4 : M4 = {(a4, ca4)} + M5) (t4 : ca4.tag = .plan)
    (f5 : ci.val (.fld .plan5) = .ptr a5 0) (e5 : M5 = {(a5, ca5)} + M6) (t5 : ca5.tag = .plan)
    (fy : ci.val (.fld .Y) = .ptr y 0) (ey : M6 = {(y, cy)} + R) (ty : cy.tag = .fftw) :
    Own (IsFftw5 (.ptr i 0)) R h :=
  ⟨_, ⟨i, a1, a2, a3, a4, a5, y, ci, ca1, ca2, ca3, ca4, ca5, cy, rfl, rfl, t, t1, t2, t3, t4, t5,
    ty, f1, f2, f3, f4, f5, fy⟩, H.perm (by rw [e, e1, e2, e3, e4, e5, ey]; abel)⟩

theorem destroyFftw5_spec {p : Val} {m : Res} (H : IsFftw5 p m) : Destroys destroyFftw5 p m := by
  intro R h Q S K
  obtain ⟨i, a1, a2, a3, a4, a5, y, ci, ca1, ca2, ca3, ca4, ca5, cy, rfl, rfl, t, t1, t2, t3, t4, t5,
    ty, f1, f2, f3, f4, f5, fy⟩ := H
  simp only [add_assoc] at S
  unfold destroyFftw5
  hss
  exact K _ (by assumption)

theorem makes_planFftw5 {k kz : Int} (h1 : 0 ≤ k) (h2 : 0 ≤ kz) :
    Makes (planFftw5 k kz) IsFftw5 := by
  intro R h Q S K
  unfold planFftw5
  hss
  exact wp_pure (K _ _ (IsFftw5.intro (by assumption) (by fnd) (by tg) (by getv) (by fnd)
    (by tg) (by getv) (by fnd) (by tg) (by getv) (by fnd) (by tg) (by getv) (by fnd) (by tg)
    (by getv) (by fnd) (by tg) (by getv) (by fnd) (by tg)))

/-! ### The annulus -/

/-- A symmetric tridiagonal matrix owning `m`. -/
def IsSymTri (n : Int) (p : Val) (m : Res) : Prop :=
  ∃ i a b ci ca cb, p = .ptr i 0 ∧ m = {(i, ci)} + ({(a, ca)} + {(b, cb)}) ∧ ci.tag = .libc ∧
    ca.tag = .libc ∧ cb.tag = .libc ∧ ci.val (.fld .a) = .ptr a 0 ∧ ci.val (.fld .b) = .ptr b 0 ∧
    ci.val (.fld .n) = .int n

theorem IsSymTri.intro {h : Heap} {M M1 M2 R : Res} {n : Int} {i a b : Nat} {ci ca cb : Cell}
    (H : Sat h M) (e : M = {(i, ci)} + M1) (t : ci.tag = .libc) (fa : ci.val (.fld .a) = .ptr a 0)
    (ea : M1 = {(a, ca)} + M2) (ta : ca.tag = .libc) (fb : ci.val (.fld .b) = .ptr b 0)
    (eb : M2 = {(b, cb)} + R) (tb : cb.tag = .libc) (fn : ci.val (.fld .n) = .int n) :
    Own (IsSymTri n (.ptr i 0)) R h :=
  ⟨_, ⟨i, a, b, ci, ca, cb, rfl, rfl, t, ta, tb, fa, fb, fn⟩, H.perm (by rw [e, ea, eb]; abel)⟩

theorem destroySymTri_spec {n : Int} {p : Val} {m : Res} (H : IsSymTri n p m) :
    Destroys destroySymTri p m := by
  intro R h Q S K
  obtain ⟨i, a, b, ci, ca, cb, rfl, rfl, t, ta, tb, fa, fb, fn⟩ := H
  simp only [add_assoc] at S
  unfold destroySymTri
  hss
  exact K _ (by assumption)

/-- A QR factorisation of a symmetric tridiagonal matrix, apart from its factor `R`, owning
`m`. -/
def IsTriQR (n : Int) (R' : Val) (p : Val) (m : Res) : Prop :=
  ∃ i s c ci cs cc, p = .ptr i 0 ∧ m = {(i, ci)} + ({(s, cs)} + {(c, cc)}) ∧ ci.tag = .libc ∧
    cs.tag = .libc ∧ cc.tag = .libc ∧ ci.val (.fld .s) = .ptr s 0 ∧ ci.val (.fld .c) = .ptr c 0 ∧
    ci.val (.fld .n) = .int n ∧ ci.val (.fld .R) = R'

theorem IsTriQR.intro {h : Heap} {M M1 M2 R : Res} {n : Int} {R' : Val} {i s c : Nat}
    {ci cs cc : Cell} (H : Sat h M) (e : M = {(i, ci)} + M1) (t : ci.tag = .libc)
    (fs : ci.val (.fld .s) = .ptr s 0) (es : M1 = {(s, cs)} + M2) (ts : cs.tag = .libc)
    (fc : ci.val (.fld .c) = .ptr c 0) (ec : M2 = {(c, cc)} + R) (tc : cc.tag = .libc)
    (fn : ci.val (.fld .n) = .int n) (fR : ci.val (.fld .R) = R') :
    Own (IsTriQR n R' (.ptr i 0)) R h :=
  ⟨_, ⟨i, s, c, ci, cs, cc, rfl, rfl, t, ts, tc, fs, fc, fn, fR⟩, H.perm (by rw [e, es, ec]; abel)⟩

theorem symTriQR_spec {n : Int} {p : Val} {m R : Res} {h : Heap} {Q : Val → Heap → Prop}
    (S : Sat h (m + R)) (H : IsSymTri n p m) (h1 : 1 ≤ n)
    (K : ∀ q r h' mr, IsTB n 2 r mr → Own (IsTriQR n r q) (mr + (m + R)) h' → Q q h') :
    WP (symTriQR p) h Q := by
  obtain ⟨i, a, b, ci, ca, cb, rfl, rfl, t, ta, tb, fa, fb, fn⟩ := H
  simp only [add_assoc] at S K
  unfold symTriQR
  hss
  refine wp_bind (callocTB_spec (by assumption) (by omega) (by norm_num) ?_)
  intro r h1' ⟨mr, hr, S1⟩
  hs
  hs
  refine wp_bind (useBanded_spec (by assumption) (hr.tbin.liveAt.mono (by fle)) ?_)
  hss
  exact wp_pure (K _ _ _ _ hr (IsTriQR.intro (by assumption) (by fnd) (by tg) (by getv) (by fnd)
    (by tg) (by getv) (by fnd) (by tg) (by getv) (by getv)))

theorem jacobiSimilarity_spec {n : Int} {q r : Val} {m R : Res} {ip : Nat} {cp : Cell}
    {h : Heap} {Q : Val → Heap → Prop} (S : Sat h (m + R)) (H : IsSymTri n q m)
    (mp : (ip, cp) ∈ R) (fr : cp.val (.fld .R) = r) (jr : r ≠ .junk) (lr : LiveAt .data r R)
    (fn : cp.val (.fld .n) = .int n) (h2 : 2 ≤ n)
    (K : ∀ q h', Own (IsSymTri (n - 1) q) (m + R) h' → Q q h') :
    WP (jacobiSimilarity (.ptr ip 0) q) h Q := by
  obtain ⟨i, a, b, ci, ca, cb, rfl, rfl, t, ta, tb, fa, fb, fn⟩ := H
  simp only [add_assoc] at S K
  unfold jacobiSimilarity
  hs
  hs
  simp only [min_self]
  hs
  hs
  hs
  hs
  hs
  hs
  refine wp_bind (wp_ld (by assumption) (by fmem) rfl fr jr ?_)
  refine wp_bind (useBanded_spec (by assumption) (lr.mono (by fle)) ?_)
  hss
  exact wp_pure (K _ _ (IsSymTri.intro (by assumption) (by fnd) (by tg) (by getv) (by fnd)
    (by tg) (by getv) (by fnd) (by tg) (by getv)))

theorem annulusStep_spec {n : Int} {q s c : Val} {m R : Res} {ip : Nat} {cp : Cell}
    {h : Heap} {Q : Val → Heap → Prop} (S : Sat h (m + ({(ip, cp)} + R))) (H : IsSymTri n q m)
    (tp : cp.tag = .libc) (hs : Live s R) (hc : Live c R) (h2 : 2 ≤ n)
    (K : ∀ q h' cp', cp'.tag = .libc → Own (IsSymTri (n - 1) q) ({(ip, cp')} + R) h' → Q q h') :
    WP (annulusStep (.ptr ip 0) s c q) h Q := by
  unfold annulusStep
  refine wp_bind (symTriQR_spec S H (by omega) ?_)
  intro F r h1 mr hr ⟨mF, hF, S1⟩
  obtain ⟨i, s', c', ci, cs, cc, rfl, rfl, t, ts, tc, fs, fc, fn, fR⟩ := hF
  obtain ⟨_, rfl⟩ := hr.ptr
  simp only [add_assoc] at S1
  hs
  hs
  hs
  hs
  refine wp_bind (use_live (by assumption) (hs.mono (by fle)) ?_)
  refine wp_bind (use_live (by assumption) (hc.mono (by fle)) ?_)
  hs
  hs
  hs
  hs
  refine wp_bind (jacobiSimilarity_spec (m := m) (by rename_i S; exact S.perm (by fnd)) H (by fmem)
    (by getv) (by simp) (hr.tbin.liveAt.mono (by fle)) (by getv) h2 ?_)
  intro q' h' ⟨m', hm', S'⟩
  refine wp_bind ((destroySymTri_spec H).run (by assumption) (by fnd) fun _ _ => ?_)
  hs
  hs
  unfold destroySymTriQR
  refine wp_bind ?_
  hs
  hs
  hs
  hs
  hs
  refine wp_bind ((destroyTB_spec hr).run (by assumption) (by fnd) fun _ _ => ?_)
  hss
  refine wp_pure (K _ _ _ ?_ ⟨m', hm', by assumption⟩)
  tg

theorem annulusLoop_spec {s c : Val} {ip : Nat} {R : Res} {Q : Val → Heap → Prop} :
    ∀ (k : Nat) (n : Int) (q : Val) (m : Res) (cp : Cell)
    (h : Heap), Sat h (m + ({(ip, cp)} + R)) → Live s R → Live c R → IsSymTri n q m →
    cp.tag = .libc → k + 1 ≤ n →
    (∀ q h' cp', cp'.tag = .libc → Own (IsSymTri (n - k) q) ({(ip, cp')} + R) h' → Q q h') →
    WP (annulusLoop (.ptr ip 0) s c k q) h Q
  | 0, n, q, m, cp, h, S, hs, hc, H, tp, hn, K => wp_pure (K _ _ _ tp ⟨m, by simpa using H, S⟩)
  | k + 1, n, q, m, cp, h, S, hs, hc, H, tp, hn, K => by
    unfold annulusLoop
    refine wp_bind (annulusStep_spec S H tp hs hc (by push_cast at hn; omega) ?_)
    intro q' h' cp' tp' ⟨m', hm', S'⟩
    refine annulusLoop_spec k (n - 1) q' m' cp' h' S' hs hc hm' tp' (by push_cast at hn; omega) ?_
    intro q h' cp' t O
    rw [show n - 1 - (k : Int) = n - ((k + 1 : Nat) : Int) by push_cast; omega] at O
    exact K _ _ _ t O

theorem convertBandedToSymTri_spec {n l u : Int} {p : Val} {m M R : Res} {h : Heap}
    {Q : Val → Heap → Prop} (H : IsBanded n n l u p m) (S : Sat h M) (e : M = m + R) (h1 : 1 ≤ n)
    (K : ∀ q h', Own (IsSymTri n q) R h' → Q q h') : WP (convertBandedToSymTri p) h Q := by
  subst e
  have H' := H
  obtain ⟨i, d, ci, cd, rfl, rfl, t, td, fd, fm, fn, fl, fu⟩ := H
  simp only [add_assoc] at S
  unfold convertBandedToSymTri useBanded destroyBanded
  hss
  exact wp_pure (K _ _ (IsSymTri.intro (by assumption) (by fnd) (by tg) (by getv) (by fnd)
    (by tg) (by getv) (by fnd) (by tg) (by getv)))

theorem annulusJP_spec {n : Int} {R : Res} {h : Heap} {Q : Val → Heap → Prop} (S : Sat h R)
    (h0 : 0 ≤ n) (K : ∀ q h', Own (IsSymTri (n + 1) q) R h' → Q q h') : WP (annulusJP n) h Q := by
  unfold annulusJP
  refine wp_bind (callocBanded_spec (by assumption) (by positivity) ?_)
  intro X h1 ⟨mX, hX, S1⟩
  refine wp_bind (convertBandedToSymTri_spec hX S1 (by fnd) (by omega) ?_)
  intro J h2 ⟨mJ, hJ, S2⟩
  have hJ' := hJ
  obtain ⟨i, a, b, ci, ca, cb, rfl, rfl, t, ta, tb, fa, fb, fn⟩ := hJ
  have S3 := S2
  simp only [add_assoc] at S3
  hss
  exact wp_pure (K _ _ ⟨_, hJ', S2⟩)

set_option maxHeartbeats 1000000 in
theorem makes_planRotAnnulus {n : Nat} (h1 : 1 ≤ n) : Makes (planRotAnnulus n) IsRot := by
  intro R h Q S K
  unfold planRotAnnulus
  hs
  hs
  hs
  hs
  hs
  refine wp_bind (annulusJP_spec (by assumption) (by omega) ?_)
  intro J1 g1 ⟨mJ1, hJ1, S1⟩
  refine wp_bind (annulusLoop_spec n _ _ _ _ _ S1 ⟨_, _, _, rfl, by fmem⟩
    ⟨_, _, _, rfl, by fmem⟩ hJ1 (by tg) (by omega) ?_)
  intro J2 g2 cp2 t2 ⟨mJ2, hJ2, S2⟩
  refine wp_bind ((destroySymTri_spec hJ2).run (by assumption) (by fnd) fun _ _ => ?_)
  refine wp_bind (annulusJP_spec (by assumption) (by omega) ?_)
  intro J3 g3 ⟨mJ3, hJ3, S3⟩
  refine wp_bind (callocBanded_spec (by assumption) (by positivity) ?_)
  intro X g4 ⟨mX, hX, S4⟩
  refine wp_bind (useBanded_spec (by assumption) (hX.liveAt.mono (by fle)) ?_)
  have S4' := S4
  obtain ⟨ix, cx, rfl, mx, fnx⟩ : ∃ ix cx, X = .ptr ix 0 ∧ (ix, cx) ∈ mX ∧
      cx.val (.fld .n) = .int ((n : Int) + 1) := by
    obtain ⟨ix, dx, cx, cdx, rfl, rfl, tx, tdx, fdx, fmx, fnx, flx, fux⟩ := hX
    exact ⟨ix, cx, rfl, by simp, fnx⟩
  hs
  hs
  refine wp_bind (convertBandedToTB_spec hX (by assumption) (by fnd) (by omega) (by norm_num) ?_)
  intro T g5 ⟨mT, hT, S5⟩
  obtain ⟨_, rfl⟩ := hT.ptr
  hs
  refine wp_bind (jacobiSimilarity_spec (m := mJ3) (by rename_i S; exact S.perm (by fnd)) hJ3
    (by fmem) (by getv) (by simp) (hT.tbin.liveAt.mono (by fle)) (by getv) (by omega) ?_)
  intro J4 g6 ⟨mJ4, hJ4, S6⟩
  refine wp_bind ((destroySymTri_spec hJ3).run (by assumption) (by fnd) fun _ _ => ?_)
  hs
  refine wp_bind ((destroyTB_spec hT).run (by assumption) (by fnd) fun _ _ => ?_)
  refine wp_bind (annulusLoop_spec (n - 1) _ _ mJ4 _ _ (by assumption) ⟨_, _, _, rfl, by fmem⟩
    ⟨_, _, _, rfl, by fmem⟩ hJ4 (by tg)
    (by omega) ?_)
  intro J5 g7 cp7 t7 ⟨mJ5, hJ5, S7⟩
  refine wp_bind ((destroySymTri_spec hJ5).run (by assumption) (by fnd) fun _ _ => ?_)
  hss
  exact wp_pure (K _ _ (IsRot.intro (by assumption) (by fnd) (by tg) (by getv) (by fnd) (by tg)
    (by getv) (by fnd) (by tg)))

end FT.Heap
