import Verif.Lemmas.HeapPlans
/-
Specifications of 2×2 block pencils and the plans built on them.
-/
set_option linter.unusedVariables false
namespace FT.Heap

/-! ### 2×2 block pencils -/

/-- A 2×2 block matrix owning `m`. -/
def IsBlock (n b : Int) (p : Val) (m : Res) : Prop :=
  ∃ i c q00 q01 q10 q11 m00 m01 m10 m11, p = .ptr i 0 ∧
    m = {(i, c)} + (m00 + (m01 + (m10 + m11))) ∧ c.tag = .libc ∧
    IsTB n b q00 m00 ∧ IsTB n b q01 m01 ∧ IsTB n b q10 m10 ∧ IsTB n b q11 m11 ∧
    c.val (.fld .data00) = q00 ∧ c.val (.fld .data01) = q01 ∧ c.val (.fld .data10) = q10 ∧
    c.val (.fld .data11) = q11 ∧ c.val (.fld .n) = .int n ∧ c.val (.fld .b) = .int b

theorem destroyBlock_spec {n b : Int} {p : Val} {m : Res} (H : IsBlock n b p m) :
    Destroys destroyBlock p m := by
  intro R h Q S K
  obtain ⟨i, c, q00, q01, q10, q11, m00, m01, m10, m11, rfl, rfl, t, h00, h01, h10, h11, f1, f2, f3,
    f4, _⟩ := H
  obtain ⟨_, rfl⟩ := h00.ptr
  obtain ⟨_, rfl⟩ := h01.ptr
  obtain ⟨_, rfl⟩ := h10.ptr
  obtain ⟨_, rfl⟩ := h11.ptr
  simp only [add_assoc] at S
  unfold destroyBlock
  hs
  refine wp_bind ((destroyTB_spec h00).run (by assumption) (by fnd) fun _ _ => ?_)
  hs
  refine wp_bind ((destroyTB_spec h01).run (by assumption) (by fnd) fun _ _ => ?_)
  hs
  refine wp_bind ((destroyTB_spec h10).run (by assumption) (by fnd) fun _ _ => ?_)
  hs
  refine wp_bind ((destroyTB_spec h11).run (by assumption) (by fnd) fun _ _ => ?_)
  hss
  exact K _ (by assumption)

theorem widen_spec {n b b' : Int} {p : Val} {m M R : Res} {h : Heap} {Q : Unit → Heap → Prop}
    (H : IsTB n b p m) (S : Sat h M) (e : M = m + R) (h0 : 0 ≤ n) (h1 : 0 ≤ b')
    (K : ∀ h', Own (IsTB n b' p) R h' → Q () h') : WP (widen p b') h Q := by
  subst e
  obtain ⟨i, c, rfl, mi, fn, fb⟩ := H.cell
  unfold widen
  hs
  by_cases hb : b = b'
  · subst hb
    exact wp_if_pos rfl (wp_pure (K _ ⟨m, H, S⟩))
  · exact wp_if_neg hb (reallocTB_spec H S rfl h0 h1 K)

theorem IsBlock.intro {h : Heap} {M m00 m01 m10 m11 R : Res} {n b : Int} {i : Nat} {c : Cell}
    {q00 q01 q10 q11 : Val} (g00 : IsTB n b q00 m00) (g01 : IsTB n b q01 m01)
    (g10 : IsTB n b q10 m10) (g11 : IsTB n b q11 m11) (H : Sat h M)
    (e : M = {(i, c)} + (m11 + (m10 + (m01 + (m00 + R))))) (t : c.tag = .libc)
    (f00 : c.val (.fld .data00) = q00) (f01 : c.val (.fld .data01) = q01)
    (f10 : c.val (.fld .data10) = q10) (f11 : c.val (.fld .data11) = q11)
    (fn : c.val (.fld .n) = .int n) (fb : c.val (.fld .b) = .int b) :
    Own (IsBlock n b (.ptr i 0)) R h :=
  ⟨_, ⟨i, c, q00, q01, q10, q11, m00, m01, m10, m11, rfl, rfl, t, g00, g01, g10, g11, f00, f01, f10,
    f11, fn, fb⟩, H.perm (by rw [e]; abel)⟩

theorem createBlock_spec {n b00 b01 b10 b11 : Int} {d00 d01 d10 d11 : Val}
    {m00 m01 m10 m11 M R : Res} {h : Heap} {Q : Val → Heap → Prop}
    (h00 : IsTB n b00 d00 m00) (h01 : IsTB n b01 d01 m01) (h10 : IsTB n b10 d10 m10)
    (h11 : IsTB n b11 d11 m11) (S : Sat h M) (e : M = m00 + (m01 + (m10 + (m11 + R)))) (h0 : 0 ≤ n)
    (hb : 0 ≤ b00)
    (K : ∀ p h', Own (IsBlock n (max (max b00 b01) (max b10 b11)) p) R h' → Q p h') :
    WP (createBlock d00 d01 d10 d11) h Q := by
  subst e
  obtain ⟨i00, c00, rfl, mi00, fn00, fb00⟩ := h00.cell
  obtain ⟨i01, c01, rfl, mi01, fn01, fb01⟩ := h01.cell
  obtain ⟨i10, c10, rfl, mi10, fn10, fb10⟩ := h10.cell
  obtain ⟨i11, c11, rfl, mi11, fn11, fb11⟩ := h11.cell
  have hb' : 0 ≤ max (max b00 b01) (max b10 b11) :=
    le_max_of_le_left (le_max_of_le_left hb)
  unfold createBlock
  hss
  refine wp_bind (widen_spec h00 (by assumption) (by fnd) h0 hb' ?_)
  intro h1 ⟨n00, g00, S1⟩
  refine wp_bind (widen_spec h01 (by assumption) (by fnd) h0 hb' ?_)
  intro h2 ⟨n01, g01, S2⟩
  refine wp_bind (widen_spec h10 (by assumption) (by fnd) h0 hb' ?_)
  intro h3 ⟨n10, g10, S3⟩
  refine wp_bind (widen_spec h11 (by assumption) (by fnd) h0 hb' ?_)
  intro h4 ⟨n11, g11, S4⟩
  hss
  exact wp_pure (K _ _ (IsBlock.intro g00 g01 g10 g11 (by assumption) rfl rfl (by getv) (by getv)
    (by getv) (by getv) (by getv) (by getv)))

theorem IsBlock.inv {n b : Int} {p : Val} {m : Res} (H : IsBlock n b p m) :
    ∃ i c q00 q01 q10 q11, p = .ptr i 0 ∧ (i, c) ∈ m ∧ c.val (.fld .n) = .int n ∧
      c.val (.fld .b) = .int b ∧ c.val (.fld .data00) = q00 ∧ c.val (.fld .data01) = q01 ∧
      c.val (.fld .data10) = q10 ∧ c.val (.fld .data11) = q11 ∧ LiveAt .data q00 m ∧
      LiveAt .data q01 m ∧ LiveAt .data q10 m ∧ LiveAt .data q11 m ∧ q00 ≠ .junk ∧ q01 ≠ .junk ∧
      q10 ≠ .junk ∧ q11 ≠ .junk := by
  obtain ⟨i, c, q00, q01, q10, q11, m00, m01, m10, m11, rfl, rfl, t, h00, h01, h10, h11, f1, f2, f3,
    f4, fn, fb⟩ := H
  refine ⟨i, c, q00, q01, q10, q11, rfl, by fmem, fn, fb, f1, f2, f3, f4,
    h00.tbin.liveAt.mono (by fle), h01.tbin.liveAt.mono (by fle), h10.tbin.liveAt.mono (by fle),
    h11.tbin.liveAt.mono (le_next (le_next (le_next (Multiset.le_add_left _ _)))), ?_, ?_, ?_, ?_⟩
  · obtain ⟨_, e⟩ := h00.ptr; rw [e]; simp
  · obtain ⟨_, e⟩ := h01.ptr; rw [e]; simp
  · obtain ⟨_, e⟩ := h10.ptr; rw [e]; simp
  · obtain ⟨_, e⟩ := h11.ptr; rw [e]; simp

theorem convertBlock_spec {n b : Int} {p : Val} {m R : Res} {h : Heap} {Q : Val → Heap → Prop}
    (S : Sat h R) (H : IsBlock n b p m) (hm : m ≤ R) (h0 : 0 ≤ n) (hb : 0 ≤ b)
    (K : ∀ p h', Own (IsTB (2 * n) (2 * b + 1) p) R h' → Q p h') : WP (convertBlock p) h Q := by
  obtain ⟨i, c, q00, q01, q10, q11, rfl, mi, fn, fb, f1, f2, f3, f4, l1, l2, l3, l4, j1, j2, j3,
    j4⟩ := H.inv
  have mi' := Multiset.mem_of_le hm mi
  unfold convertBlock
  hs
  hs
  refine wp_bind (callocTB_spec (by assumption) (by positivity) (by positivity) ?_)
  intro B h1 ⟨mB, hB, S1⟩
  refine wp_bind (wp_ld S1 (mem_next mi') rfl f1 j1 ?_)
  refine wp_bind (useBanded_spec S1 (l1.mono (le_next hm)) ?_)
  refine wp_bind (wp_ld S1 (mem_next mi') rfl f2 j2 ?_)
  refine wp_bind (useBanded_spec S1 (l2.mono (le_next hm)) ?_)
  refine wp_bind (wp_ld S1 (mem_next mi') rfl f3 j3 ?_)
  refine wp_bind (useBanded_spec S1 (l3.mono (le_next hm)) ?_)
  refine wp_bind (wp_ld S1 (mem_next mi') rfl f4 j4 ?_)
  refine wp_bind (useBanded_spec S1 (l4.mono (le_next hm)) ?_)
  refine wp_bind (useBanded_spec S1 (hB.tbin.liveAt.mono (by fle)) ?_)
  exact wp_pure (K _ _ ⟨mB, hB, S1⟩)

/-- A factorisation of a 2×2 block pencil owning `m`. -/
def IsBtb (n : Int) (p : Val) (m : Res) : Prop :=
  ∃ i s c t q ce cs cc ct mF, p = .ptr i 0 ∧
    m = {(i, ce)} + ({(s, cs)} + ({(c, cc)} + ({(t, ct)} + mF))) ∧ ce.tag = .libc ∧
    cs.tag = .libc ∧ cc.tag = .libc ∧ ct.tag = .libc ∧ IsFmm (2 * n) q mF ∧
    ce.val (.fld .F) = q ∧ ce.val (.fld .s) = .ptr s 0 ∧ ce.val (.fld .c) = .ptr c 0 ∧
    ce.val (.fld .t) = .ptr t 0 ∧ ce.val (.fld .n) = .int n

theorem IsBtb.intro {h : Heap} {M M1 M2 M3 mF R : Res} {n : Int} {i s c t : Nat}
    {ce cs cc ct : Cell} {q : Val} (hF : IsFmm (2 * n) q mF) (H : Sat h M)
    (e : M = {(i, ce)} + M1) (te : ce.tag = .libc) (fs : ce.val (.fld .s) = .ptr s 0)
    (es : M1 = {(s, cs)} + M2) (ts : cs.tag = .libc) (fc : ce.val (.fld .c) = .ptr c 0)
    (ec : M2 = {(c, cc)} + M3) (tc : cc.tag = .libc) (ft : ce.val (.fld .t) = .ptr t 0)
    (et : M3 = {(t, ct)} + (mF + R)) (tt : ct.tag = .libc) (fF : ce.val (.fld .F) = q)
    (fn : ce.val (.fld .n) = .int n) : Own (IsBtb n (.ptr i 0)) R h :=
  ⟨_, ⟨i, s, c, t, q, ce, cs, cc, ct, mF, rfl, rfl, te, ts, tc, tt, hF, fF, fs, fc, ft, fn⟩,
    H.perm (by rw [e, es, ec, et]; abel)⟩

theorem destroyBtb_spec {n : Int} {p : Val} {m : Res} (H : IsBtb n p m) :
    DestroysF destroyBtb p m := by
  obtain ⟨i, s, c, t, q, ce, cs, cc, ct, mF, rfl, rfl, te, ts, tc, tt, hF, fF, fs, fc, ft, fn⟩ := H
  obtain ⟨k, hk⟩ := destroyTbFMM_spec hF
  refine ⟨k, fun fuel hf R h Q S K => ?_⟩
  obtain ⟨_, rfl⟩ := hF.ptr
  simp only [add_assoc] at S
  unfold destroyBtb
  hs
  refine wp_bind ((hk fuel hf).run (by assumption) (by fnd) fun _ _ => ?_)
  hss
  exact K _ (by assumption)

theorem btbEig_spec {T : Nat} {sh : Int → Int → TbShape} {fuel : Nat} {n bA bB : Int} {A B D : Val}
    {mA mB R : Res} {h : Heap} {Q : Val → Heap → Prop} (hf : (2 * n).toNat < fuel) (h0 : 0 ≤ n)
    (hbA : 0 ≤ bA) (hbB : 0 ≤ bB) (S : Sat h R) (hA : IsBlock n bA A mA) (hB : IsBlock n bB B mB)
    (lA : mA ≤ R) (lB : mB ≤ R) (hD : Live D R)
    (K : ∀ p h', Own (IsBtb n p) R h' → Q p h') : WP (btbEig T sh fuel A B D) h Q := by
  obtain ⟨i, c, q00, q01, q10, q11, rfl, mi, fn, fb, -⟩ := hA.inv
  have mi' := Multiset.mem_of_le lA mi
  unfold btbEig
  hs
  hs
  hs
  refine wp_bind (use_live (by assumption) (hD.mono (by fle)) ?_)
  hs
  hs
  refine wp_bind (convertBlock_spec (by assumption) hA (le_next (le_next lA)) h0 hbA ?_)
  intro TA h1 ⟨mTA, hTA, S1⟩
  refine wp_bind (convertBlock_spec (by assumption) hB (le_next (le_next (le_next lB))) h0 hbB ?_)
  intro TB h2 ⟨mTB, hTB, S2⟩
  refine wp_bind (tbEigFMM_spec T sh fuel (2 * n) (2 * bA + 1) (2 * bB + 1) 0 _ _ _ _ _ _ hf
    (by positivity) (by positivity) (by positivity) (by assumption) (hTA.tbin.mono (by fle))
    (hTB.tbin.mono (by fle)) (hD.mono (by fle)) ?_)
  intro F h3 ⟨mF, hF, S3⟩
  refine wp_bind ((destroyTB_spec hTA).run (by assumption) (by fnd) fun _ _ => ?_)
  refine wp_bind ((destroyTB_spec hTB).run (by assumption) (by fnd) fun _ _ => ?_)
  hss
  exact wp_pure (K _ _ (IsBtb.intro hF (by assumption) (by fnd) (by tg) (by getv) (by fnd) (by tg)
    (by getv) (by fnd) (by tg) (by getv) (by fnd) (by tg) (by getv) (by getv)))

theorem dropBtb_spec {T : Nat} {sh : Int → Int → TbShape} {fuel : Nat} {n : Int} {F2 : Val}
    {m2 R : Res} {h : Heap} {Q : Val → Heap → Prop} (hf : (2 * n).toNat < fuel) (h0 : 0 ≤ n)
    (S : Sat h R) (H : IsBtb n F2 m2) (l2 : m2 ≤ R)
    (K : ∀ p h', Own (IsBtb n p) R h' → Q p h') : WP (dropBtb T sh fuel F2) h Q := by
  obtain ⟨i, s, c, t, q, ce, cs, cc, ct, mF, rfl, rfl, te, ts, tc, tt, hF, fF, fs, fc, ft, fn⟩ := H
  obtain ⟨_, rfl⟩ := hF.ptr
  have mi : (i, ce) ∈ R := Multiset.mem_of_le l2 (by fmem)
  have ms : (s, cs) ∈ R := Multiset.mem_of_le l2 (by fmem)
  have mc : (c, cc) ∈ R := Multiset.mem_of_le l2 (by fmem)
  have lF : mF ≤ R := le_trans (le_next (le_next (le_next (Multiset.le_add_left _ _)))) l2
  unfold dropBtb
  hs
  hs
  hs
  refine wp_bind (dropTbFMM_spec T sh fuel (2 * n) 0 _ _ _ _ _ hf (by assumption) hF (le_next lF) ?_)
  intro F h1 ⟨m, hm, S1⟩
  hss
  exact wp_pure (K _ _ (IsBtb.intro hm (by assumption) (by fnd) (by tg) (by getv) (by fnd) (by tg)
    (by getv) (by fnd) (by tg) (by getv) (by fnd) (by tg) (by getv) (by getv)))

/-- `f` makes an object described by `P` and loses `k` blocks. -/
def MakesL (f : HM Val) (P : Val → Res → Prop) (k : Nat) : Prop :=
  ∀ (R : Res) (h : Heap) (Q : Val → Heap → Prop), Sat h R →
    (∀ p h' L, L.card = k → Own (P p) (L + R) h' → Q p h') → WP f h Q

theorem Makes.leak {f : HM Val} {P : Val → Res → Prop} (H : Makes f P) : MakesL f P 0 :=
  fun R h Q S K => H R h Q S fun p h' O => K p h' 0 rfl (by rw [zero_add]; exact O)

set_option maxHeartbeats 1000000 in
theorem assocPlan_leak {T : Nat} {sh2 sh : Int → Int → TbShape} {fuel : Nat}
    {n bA bB b1 b2 b3 : Int} {mkA mkB mkC : HM Val} (hf : (2 * n).toNat < fuel) (h0 : 0 ≤ n)
    (hbA : 0 ≤ bA) (hbB : 0 ≤ bB) (h1 : 0 ≤ b1) (hA : Makes mkA (IsTB n b1))
    {k : Nat} (hB : MakesL mkB (IsTB n b2) k) (hC : Makes mkC (IsTB n b3)) {R : Res} {h : Heap} (S : Sat h R)
    {Q : Val → Heap → Prop} (K : ∀ p h' L, L.card = k → Own (IsBtb n p) (L + R) h' → Q p h') :
    WPF (fun fd => assocPlan T sh2 sh fuel fd n bA bB mkA mkB mkC) h Q := by
  unfold assocPlan
  refine wpf_bind (hA _ _ _ (by assumption) ?_)
  intro A00 h1' ⟨m00, g00, S1⟩
  refine wpf_bind (hB _ _ _ (by assumption) ?_)
  intro A01 h2 L hL ⟨m01, g01, S2⟩
  refine wpf_bind (callocTB_spec (by assumption) h0 hbA ?_)
  intro A10 h3 ⟨m10, g10, S3⟩
  refine wpf_bind (callocTB_spec (by assumption) h0 hbA ?_)
  intro A11 h4 ⟨m11, g11, S4⟩
  refine wpf_bind (callocTB_spec (by assumption) h0 hbB ?_)
  intro B00 h5 ⟨n00, k00, S5⟩
  refine wpf_bind (hC _ _ _ (by assumption) ?_)
  intro B01 h6 ⟨n01, k01, S6⟩
  refine wpf_bind (callocTB_spec (by assumption) h0 hbB ?_)
  intro B10 h7 ⟨n10, k10, S7⟩
  refine wpf_bind (callocTB_spec (by assumption) h0 hbB ?_)
  intro B11 h8 ⟨n11, k11, S8⟩
  refine wpf_bind (createBlock_spec (R := n11 + (n10 + (n01 + (n00 + (L + R))))) g00 g01 g10 g11 S8
    (by abel) h0 h1 ?_)
  intro A h9 ⟨mA, gA, S9⟩
  refine wpf_bind (createBlock_spec (R := mA + (L + R)) k00 k01 k10 k11 S9 (by abel) h0 hbB ?_)
  intro B h10 ⟨mB, gB, S10⟩
  refine wpf_bind ?_
  hs
  refine wpf_bind ?_
  hs
  refine wpf_bind (btbEig_spec hf h0 (le_max_of_le_left (le_max_of_le_left h1))
    (le_max_of_le_left (le_max_of_le_left hbB)) (by assumption) gA gB (by fle) (by fle)
    ⟨_, _, _, rfl, by fmem⟩ ?_)
  intro F2 h11 ⟨m2, hm2, S11⟩
  refine wpf_bind (dropBtb_spec hf h0 (by assumption) hm2 (by fle) ?_)
  intro F h12 ⟨m, hm, S12⟩
  refine wpf_bind ((destroyBlock_spec gA).run (by assumption) (by fnd) fun _ _ => ?_)
  refine wpf_bind ((destroyBlock_spec gB).run (by assumption) (by fnd) fun _ _ => ?_)
  refine (destroyBtb_spec hm2).runBind (by assumption) (by fnd) fun _ _ => ?_
  hss
  exact wp_pure (K _ _ L hL ⟨m, hm, by assumption⟩)

theorem assocPlan_spec {T : Nat} {sh2 sh : Int → Int → TbShape} {fuel : Nat}
    {n bA bB b1 b2 b3 : Int} {mkA mkB mkC : HM Val} (hf : (2 * n).toNat < fuel) (h0 : 0 ≤ n)
    (hbA : 0 ≤ bA) (hbB : 0 ≤ bB) (h1 : 0 ≤ b1) (hA : Makes mkA (IsTB n b1))
    (hB : Makes mkB (IsTB n b2)) (hC : Makes mkC (IsTB n b3)) {R : Res} {h : Heap} (S : Sat h R)
    {Q : Val → Heap → Prop} (K : ∀ p h', Own (IsBtb n p) R h' → Q p h') :
    WPF (fun fd => assocPlan T sh2 sh fuel fd n bA bB mkA mkB mkC) h Q :=
  assocPlan_leak hf h0 hbA hbB h1 hA hB.leak hC S fun p h' L hL H => K p h' (by
    rw [Multiset.card_eq_zero.1 hL, zero_add] at H; exact H)

end FT.Heap
