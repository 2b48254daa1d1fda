import Verif.Ellred.RedIqe
import Verif.Ellred.PartFrac

/-! # `Im` is the integral, if `Ie` is right -/

namespace Verif.Ellred

open MeasureTheory Set Verif.Carlson

/-- The coefficients at infinity. -/
noncomputable def Pco (I : Finset ℕ) (α : ℕ → ℂ) (m : ℕ → ℤ) (s : ℤ) : ℂ :=
  if s < 0 then 0 else psum (fun v => -1 / (v : ℂ) * ∑ j ∈ I.erase 1, (m j : ℂ) * (α 1 - α j) ^ v) s.toNat

/-- The coefficients at the point `i`. -/
noncomputable def Cco (I : Finset ℕ) (α : ℕ → ℂ) (m : ℕ → ℤ) (i : ℕ) (s : ℤ) : ℂ :=
  if s < 0 then 0 else (∏ j ∈ I.erase i, (α j - α i) ^ m j) *
    psum (fun v => -1 / (v : ℂ) * ∑ j ∈ I.erase i, (m j : ℂ) * ((α i - α j)⁻¹) ^ v) s.toNat

theorem sum_bump {I : Finset ℕ} {k i : ℕ} (hk : k ∈ I) (hki : k ≠ i) (m : ℕ → ℤ) (f : ℕ → ℂ) :
    ∑ j ∈ I.erase i, (bump m k j : ℂ) * f j = ∑ j ∈ I.erase i, (m j : ℂ) * f j + f k := by
  have : ∀ j ∈ I.erase i, (bump m k j : ℂ) * f j = (m j : ℂ) * f j + if j = k then f k else 0 := by
    intro j _
    simp only [bump]
    split_ifs with e
    · subst e; push_cast; ring
    · push_cast; ring
  rw [Finset.sum_congr rfl this, Finset.sum_add_distrib, Finset.sum_ite_eq', if_pos (Finset.mem_erase.mpr ⟨hki, hk⟩)]

theorem sum_bump_self {I : Finset ℕ} {i : ℕ} (m : ℕ → ℤ) (f : ℕ → ℂ) :
    ∑ j ∈ I.erase i, (bump m i j : ℂ) * f j = ∑ j ∈ I.erase i, (m j : ℂ) * f j :=
  Finset.sum_congr rfl fun j hj => by simp [bump, Finset.ne_of_mem_erase hj]

theorem pf_co {I : Finset ℕ} {α : ℕ → ℂ} (hinj : ∀ i ∈ I, ∀ j ∈ I, α i = α j → i = j) (h1 : 1 ∈ I) : PF I α (Pco I α) (Cco I α) where
  inj := hinj
  one := h1
  P_neg m s hs := by rw [Pco, if_pos hs]
  P_zero m := by simp [Pco, psum_zero]
  P_nil m s hm hs := by
    rw [Pco]
    split_ifs with h0
    · rfl
    · have : (fun v : ℕ => -1 / (v : ℂ) * ∑ j ∈ I.erase 1, (m j : ℂ) * (α 1 - α j) ^ v) = fun _ => 0 := by
        funext v
        rw [Finset.sum_eq_zero fun j hj => by rw [hm j (Finset.mem_of_mem_erase hj)]; simp, mul_zero]
      rw [this, psum_nil, if_neg (by omega)]
  P_bump m s k hk := by
    by_cases hk1 : k = 1
    · subst hk1
      rw [sub_self, zero_mul, add_zero, Pco, Pco]
      simp only [sum_bump_self]
    · rcases lt_or_ge s 0 with hs | hs
      · rw [Pco, Pco, Pco, if_pos hs, if_pos hs, if_pos (by omega)]; simp
      · have e : (fun v : ℕ => -1 / (v : ℂ) * ∑ j ∈ I.erase 1, (bump m k j : ℂ) * (α 1 - α j) ^ v) =
            fun v : ℕ => -1 / (v : ℂ) * ∑ j ∈ I.erase 1, (m j : ℂ) * (α 1 - α j) ^ v - (α 1 - α k) ^ v / v := by
          funext v
          rw [sum_bump hk hk1]
          ring
        have eP : Pco I α m s = psum (fun v => -1 / (v : ℂ) * ∑ j ∈ I.erase 1, (m j : ℂ) * (α 1 - α j) ^ v) s.toNat := by
          rw [Pco, if_neg (by omega)]
        rw [Pco, if_neg (by omega), e, psum_mul, eP]
        rcases eq_or_lt_of_le hs with h0 | h0
        · rw [if_pos (by omega), Pco, if_pos (by omega)]
          simp
        · rw [if_neg (by omega), Pco, if_neg (by omega), show (s - 1).toNat = s.toNat - 1 by omega]
          ring
  c_neg m i s hs := by rw [Cco, if_pos hs]
  c_nil m i hi s hm := by
    rw [Cco]
    split_ifs with h0 h2 h2
    · omega
    · rfl
    all_goals
      have e1 : ∏ j ∈ I.erase i, (α j - α i) ^ m j = 1 :=
        Finset.prod_eq_one fun j hj => by rw [hm j (Finset.mem_of_mem_erase hj) (Finset.ne_of_mem_erase hj), zpow_zero]
      have e2 : (fun v : ℕ => -1 / (v : ℂ) * ∑ j ∈ I.erase i, (m j : ℂ) * ((α i - α j)⁻¹) ^ v) = fun _ => 0 := by
        funext v
        rw [Finset.sum_eq_zero fun j hj => by rw [hm j (Finset.mem_of_mem_erase hj) (Finset.ne_of_mem_erase hj)]; simp, mul_zero]
      rw [e1, e2, psum_nil, one_mul]
    · rw [if_pos (by omega)]
    · rw [if_neg (by omega)]
  c_bump m s i hi k hk hki := by
    have hne : α k - α i ≠ 0 := fun e => hki (hinj k hk i hi (sub_eq_zero.mp e))
    have hD : ∏ j ∈ I.erase i, (α j - α i) ^ bump m k j = (α k - α i) * ∏ j ∈ I.erase i, (α j - α i) ^ m j := by
      have hk' : k ∈ I.erase i := Finset.mem_erase.mpr ⟨hki, hk⟩
      rw [← Finset.mul_prod_erase _ _ hk', ← Finset.mul_prod_erase _ (fun j => (α j - α i) ^ m j) hk', ← mul_assoc]
      congr 1
      · simp only [bump, if_true]
        rw [zpow_add_one₀ hne, mul_comm]
      · apply Finset.prod_congr rfl
        intro j hj
        simp [bump, Finset.ne_of_mem_erase hj]
    rcases lt_or_ge s 0 with hs | hs
    · rw [Cco, Cco, Cco, if_pos hs, if_pos hs, if_pos (by omega)]; simp
    · have e : (fun v : ℕ => -1 / (v : ℂ) * ∑ j ∈ I.erase i, (bump m k j : ℂ) * ((α i - α j)⁻¹) ^ v) =
          fun v : ℕ => -1 / (v : ℂ) * ∑ j ∈ I.erase i, (m j : ℂ) * ((α i - α j)⁻¹) ^ v - ((α i - α k)⁻¹) ^ v / v := by
        funext v
        rw [sum_bump hk hki]
        ring
      have hne' : α i - α k ≠ 0 := by rw [← neg_sub]; exact neg_ne_zero.mpr hne
      have hq : (α k - α i) * (α i - α k)⁻¹ = -1 := by rw [← neg_sub (α i), neg_mul, mul_inv_cancel₀ hne']
      have eC : Cco I α m i s = (∏ j ∈ I.erase i, (α j - α i) ^ m j) *
          psum (fun v => -1 / (v : ℂ) * ∑ j ∈ I.erase i, (m j : ℂ) * ((α i - α j)⁻¹) ^ v) s.toNat := by
        rw [Cco, if_neg (by omega)]
      rw [Cco, if_neg (by omega), e, psum_mul, hD, eC]
      rcases eq_or_lt_of_le hs with h0 | h0
      · rw [if_pos (by omega), Cco, if_pos (by omega)]
        ring
      · rw [if_neg (by omega), Cco, if_neg (by omega), show (s - 1).toNat = s.toNat - 1 by omega]
        linear_combination (-(∏ j ∈ I.erase i, (α j - α i) ^ m j) * psum (fun v : ℕ => -1 / (v : ℂ) * ∑ j ∈ I.erase i, (m j : ℂ) * ((α i - α j)⁻¹) ^ v) (s.toNat - 1)) * hq
  c_self m s i hi := by
    rw [Cco, Cco]
    have : ∏ j ∈ I.erase i, (α j - α i) ^ bump m i j = ∏ j ∈ I.erase i, (α j - α i) ^ m j :=
      Finset.prod_congr rfl fun j hj => by simp [bump, Finset.ne_of_mem_erase hj]
    simp only [sum_bump_self, this]

namespace EllRed

variable {E : EllRed}

theorem C_pos (m : List ℤ) {s : ℤ} (hs : 0 ≤ s) : E.C m s 1 = Pco (Finset.Icc 1 E.n) E.av (mget m) s := by
  rw [Pco, if_neg (by omega), C]
  split_ifs with h0
  · subst h0; simp [psum_zero]
  · have : (∑ p : s.natAbs.Partition, ∏ v ∈ p.parts.toFinset, E.mu m (s.sign * v) 1 ^ p.parts.count v / (p.parts.count v).factorial) =
        psum (fun v => E.mu m (s.sign * v) 1) s.natAbs := rfl
    rw [this, show s.natAbs = s.toNat by omega]
    apply psum_congr
    intro v hv
    rw [Int.sign_eq_one_of_pos (by omega), one_mul, mu, Int.natAbs_natCast]
    congr 1
    apply Finset.sum_congr rfl
    intro j hj
    have := (Finset.mem_Icc.mp (Finset.mem_of_mem_erase hj)).1
    rw [d_eq one_ne_zero (by omega), zpow_natCast]

theorem C_neg (m : List ℤ) {s : ℤ} (hs : s ≤ 0) {i : ℕ} (hi : 1 ≤ i) : E.D m i * E.C m s i = Cco (Finset.Icc 1 E.n) E.av (mget m) i (-s) := by
  rw [Cco, if_neg (by omega), C, D]
  have hD : ∏ j ∈ (Finset.Icc 1 E.n).erase i, E.d j i ^ mget m j = ∏ j ∈ (Finset.Icc 1 E.n).erase i, (E.av j - E.av i) ^ mget m j := by
    apply Finset.prod_congr rfl
    intro j hj
    have := (Finset.mem_Icc.mp (Finset.mem_of_mem_erase hj)).1
    rw [d_eq (by omega) (by omega)]
  rw [hD]
  congr 1
  split_ifs with h0
  · subst h0; simp [psum_zero]
  · have : (∑ p : s.natAbs.Partition, ∏ v ∈ p.parts.toFinset, E.mu m (s.sign * v) i ^ p.parts.count v / (p.parts.count v).factorial) =
        psum (fun v => E.mu m (s.sign * v) i) s.natAbs := rfl
    rw [this, show s.natAbs = (-s).toNat by omega]
    apply psum_congr
    intro v hv
    rw [Int.sign_eq_neg_one_of_neg (by omega), mu]
    rw [show (-1 * (v : ℤ)).natAbs = v by simp]
    congr 1
    apply Finset.sum_congr rfl
    intro j hj
    have := (Finset.mem_Icc.mp (Finset.mem_of_mem_erase hj)).1
    rw [d_eq (by omega) (by omega), neg_one_mul, zpow_neg, zpow_natCast, inv_pow]

theorem tot_mget {m : List ℤ} (hm : m.length = E.n) : PF.tot (Finset.Icc 1 E.n) (mget m) = m.sum := by
  have e3 : ∑ j ∈ Finset.Icc 1 E.n, mget m j = ∑ i ∈ Finset.range E.n, mget m (i + 1) := by
    rw [Finset.range_eq_Ico, Finset.sum_Ico_add' (fun j => mget m j) 0 E.n 1]
    rfl
  rw [PF.tot, e3, ← hm, Finset.sum_range]
  have : m = List.ofFn fun i : Fin m.length => m[i] := by simp
  conv_rhs => rw [this, List.sum_ofFn]
  apply Finset.sum_congr rfl
  intro i _
  simp [mget]

/-- The sum over partial fractions. -/
theorem Im_sum (h : Ok E) (hb : ∀ j, 1 ≤ j → j ≤ E.n → ∀ q : ℤ, -1 ≤ q → q ≤ 1 → E.Ie (q * j) = E.J q j) {m : List ℤ} (hm : m.length = E.n) :
    ∑ q ∈ Finset.range (m.sum + 1).toNat, E.C m (m.sum - q) 1 * E.Iqe q 1 +
      ∑ i ∈ Finset.Icc 1 E.n, E.D m i * ∑ q ∈ Finset.Icc 1 (-mget m i).toNat, E.C m (mget m i + q) i * E.Iqe (-q) i =
        ∫ t in E.y..E.x, E.v m t := by
  have hle := h.le
  have hn : 1 ≤ E.n := by have := E.hh; omega
  have h1 : 1 ∈ Finset.Icc 1 E.n := Finset.mem_Icc.mpr ⟨le_rfl, hn⟩
  have hpf := pf_co (I := Finset.Icc 1 E.n) (α := E.av) (fun i hi j hj e => by
    obtain ⟨a1, a2⟩ := Finset.mem_Icc.mp hi
    obtain ⟨b1, b2⟩ := Finset.mem_Icc.mp hj
    exact h.inj a1 a2 b1 b2 e) h1
  -- the integrand
  have hv : ∀ t ∈ uIcc E.y E.x, E.v m t =
      ∑ q ∈ Finset.range (m.sum + 1).toNat, E.C m (m.sum - q) 1 * ((E.av 1 + (t : ℂ)) ^ (q : ℤ) / E.s t) +
      ∑ i ∈ Finset.Icc 1 E.n, ∑ q ∈ Finset.range (-mget m i).toNat,
        E.D m i * E.C m (mget m i + (q + 1)) i * ((E.av i + (t : ℂ)) ^ (-((q : ℤ) + 1)) / E.s t) := by
    intro t ht
    have hs := s_ne h ht
    have hu : ∀ i ∈ Finset.Icc 1 E.n, E.av i + (t : ℂ) ≠ 0 := fun i hi => by
      obtain ⟨a1, a2⟩ := Finset.mem_Icc.mp hi
      exact h.u_ne a1 a2 ht
    rw [v_eq h hm ht, ← hpf.F_eq hu _ (mget m) rfl, PF.F, PF.poly, tot_mget hm, add_div, Finset.sum_div, Finset.sum_div]
    congr 1
    · apply Finset.sum_congr rfl
      intro q hq
      have := Finset.mem_range.mp hq
      rw [C_pos m (by omega), zpow_natCast]
      ring
    · apply Finset.sum_congr rfl
      intro i hi
      rw [PF.prin, Finset.sum_div]
      apply Finset.sum_congr rfl
      intro q hq
      have := Finset.mem_range.mp hq
      rw [C_neg m (by omega) (Finset.mem_Icc.mp hi).1, show -(mget m i + ((q : ℤ) + 1)) = -mget m i - (q + 1) by ring]
      ring
  rw [intervalIntegral.integral_congr hv]
  have i1 : ∀ q ∈ Finset.range (m.sum + 1).toNat,
      IntervalIntegrable (fun t : ℝ => E.C m (m.sum - q) 1 * ((E.av 1 + (t : ℂ)) ^ (q : ℤ) / E.s t)) volume E.y E.x :=
    fun q _ => (J_int h le_rfl hn q).const_mul _
  have i2 : ∀ i ∈ Finset.Icc 1 E.n, ∀ q ∈ Finset.range (-mget m i).toNat,
      IntervalIntegrable (fun t : ℝ => E.D m i * E.C m (mget m i + (q + 1)) i * ((E.av i + (t : ℂ)) ^ (-((q : ℤ) + 1)) / E.s t)) volume E.y E.x :=
    fun i hi q _ => (J_int h (Finset.mem_Icc.mp hi).1 (Finset.mem_Icc.mp hi).2 _).const_mul _
  have i3 : ∀ i ∈ Finset.Icc 1 E.n, IntervalIntegrable (fun t : ℝ => ∑ q ∈ Finset.range (-mget m i).toNat,
      E.D m i * E.C m (mget m i + (q + 1)) i * ((E.av i + (t : ℂ)) ^ (-((q : ℤ) + 1)) / E.s t)) volume E.y E.x := fun i hi => by
    have := IntervalIntegrable.sum _ (i2 i hi)
    refine this.congr ?_
    intro t _
    simp
  have i4 : IntervalIntegrable (fun t : ℝ => ∑ q ∈ Finset.range (m.sum + 1).toNat, E.C m (m.sum - q) 1 * ((E.av 1 + (t : ℂ)) ^ (q : ℤ) / E.s t))
      volume E.y E.x := by
    have := IntervalIntegrable.sum _ i1
    refine this.congr ?_
    intro t _
    simp
  have i5 : IntervalIntegrable (fun t : ℝ => ∑ i ∈ Finset.Icc 1 E.n, ∑ q ∈ Finset.range (-mget m i).toNat,
      E.D m i * E.C m (mget m i + (q + 1)) i * ((E.av i + (t : ℂ)) ^ (-((q : ℤ) + 1)) / E.s t)) volume E.y E.x := by
    have := IntervalIntegrable.sum _ i3
    refine this.congr ?_
    intro t _
    simp
  rw [intervalIntegral.integral_add i4 i5, intervalIntegral.integral_finset_sum i1, intervalIntegral.integral_finset_sum i3]
  congr 1
  · apply Finset.sum_congr rfl
    intro q _
    rw [intervalIntegral.integral_const_mul, Iqe_eq h hb _ _ le_rfl hn, J]
  · apply Finset.sum_congr rfl
    intro i hi
    rw [intervalIntegral.integral_finset_sum (i2 i hi), Finset.mul_sum]
    rw [show Finset.Icc 1 (-mget m i).toNat = Finset.Ico (0 + 1) ((-mget m i).toNat + 1) from rfl,
      ← Finset.sum_Ico_add' (fun q : ℕ => E.D m i * (E.C m (mget m i + q) i * E.Iqe (-q) i)) 0 (-mget m i).toNat 1, ← Finset.range_eq_Ico]
    apply Finset.sum_congr rfl
    intro q _
    rw [intervalIntegral.integral_const_mul, Iqe_eq h hb _ _ (Finset.mem_Icc.mp hi).1 (Finset.mem_Icc.mp hi).2, J]
    push_cast
    ring

theorem v_single (h : Ok E) {m : List ℤ} (hm : m.length = E.n) {j : ℕ} (h1 : 1 ≤ j) (h2 : j ≤ E.n) (hz : ∀ i, 1 ≤ i → i ≤ E.n → i ≠ j → mget m i = 0)
    {t : ℝ} (ht : t ∈ uIcc E.y E.x) : E.v m t = (E.av j + (t : ℂ)) ^ mget m j / E.s t := by
  rw [v_eq h hm ht, Finset.prod_eq_single_of_mem j (Finset.mem_Icc.mpr ⟨h1, h2⟩)]
  intro i hi hij
  obtain ⟨a1, a2⟩ := Finset.mem_Icc.mp hi
  rw [hz i a1 a2 hij, zpow_zero]

theorem mget_of_mem_zipIdx {m : List ℤ} {q : ℤ} {j : ℕ} : (q, j) ∈ m.zipIdx 1 ↔ 1 ≤ j ∧ j ≤ m.length ∧ mget m j = q := by
  rw [List.mem_zipIdx_iff_le_and_getElem?_sub]
  constructor
  · rintro ⟨a1, a2⟩
    obtain ⟨a3, a4⟩ := List.getElem?_eq_some_iff.mp a2
    refine ⟨a1, by omega, ?_⟩
    rw [mget, if_pos (by omega), List.getD_eq_getElem _ _ a3, a4]
  · rintro ⟨a1, a2, a3⟩
    refine ⟨a1, ?_⟩
    have : j - 1 < m.length := by omega
    rw [mget, if_pos (by omega), List.getD_eq_getElem _ _ this] at a3
    rw [List.getElem?_eq_getElem this, a3]

/-- `Im` is the integral, if `Ie` is. -/
theorem Im_eq (h : Ok E) (hb : ∀ j, 1 ≤ j → j ≤ E.n → ∀ q : ℤ, -1 ≤ q → q ≤ 1 → E.Ie (q * j) = E.J q j) {m : List ℤ} (hm : m.length = E.n) :
    E.Im m = ∫ t in E.y..E.x, E.v m t := by
  have hle := h.le
  have hn : 1 ≤ E.n := by have := E.hh; omega
  rw [Im]
  split_ifs with h0
  · have := hb 1 le_rfl hn 0 (by omega) (by omega)
    rw [zero_mul] at this
    rw [this, J]
    apply intervalIntegral.integral_congr
    intro t ht
    have hz : ∀ i, mget m i = 0 := fun i => by
      rw [mget]
      split_ifs
      · by_cases hl : i - 1 < m.length
        · rw [List.getD_eq_getElem _ _ hl]; exact h0 _ (List.getElem_mem hl)
        · rw [List.getD_eq_default _ _ (by omega)]
      · rfl
    simp only
    rw [v_single h hm le_rfl hn (fun i _ _ _ => hz i) ht, hz]
  · split
    · next q j hl =>
      have hmem : ∀ p : ℤ × ℕ, p ∈ (m.zipIdx 1).filter (fun k => k.1 ≠ 0) ↔ p = (q, j) := fun p => by rw [hl, List.mem_singleton]
      have hqj := (hmem (q, j)).mpr rfl
      rw [List.mem_filter, mget_of_mem_zipIdx] at hqj
      obtain ⟨⟨b1, b2, b3⟩, -⟩ := hqj
      rw [hm] at b2
      rw [Iqe_eq h hb _ _ b1 b2, J]
      apply intervalIntegral.integral_congr
      intro t ht
      simp only
      rw [v_single h hm b1 b2 (fun i c1 c2 hij => ?_) ht, b3]
      by_contra hc
      have := (hmem (mget m i, i)).mp (List.mem_filter.mpr ⟨mget_of_mem_zipIdx.mpr ⟨c1, by rw [hm]; exact c2, rfl⟩, by simpa using hc⟩)
      rw [Prod.mk.injEq] at this
      exact hij this.2
    · exact Im_sum h hb hm

end EllRed

end Verif.Ellred
