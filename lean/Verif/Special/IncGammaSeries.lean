import Verif.Special.IncGammaFac
import Mathlib.Analysis.Complex.ExponentialBounds
import Mathlib.Analysis.SpecialFunctions.Gamma.Deligne

/-!
# The power series regimes of `gammainc` and `gammaincc` (C100, C101)
-/

open Real Filter Topology Finset

namespace Verif.Special

set_option exponentiation.threshold 2000

theorem igTerm_le_one {a x : ℝ} (ha : 0 < a) (hx : 0 ≤ x) (h : x ≤ 1 ∨ x ≤ a) (n : ℕ) :
    igTerm a x n ≤ 1 := by
  refine prod_le_one (fun k _ => by positivity) fun k _ => ?_
  rw [div_le_one (by positivity)]
  have : (0 : ℝ) ≤ k := by positivity
  rcases h with h | h <;> linarith

theorem igTerm_le_pow {a x r : ℝ} (ha : 0 < a) (hx : 0 ≤ x) (h : x ≤ 1 ∨ x ≤ a) (m : ℕ)
    (hr : x ≤ r * (a + (m + 1))) (hr0 : 0 ≤ r) (n : ℕ) : igTerm a x (m + n) ≤ r ^ n := by
  induction n with
  | zero => simpa using igTerm_le_one ha hx h m
  | succ n ih =>
    rw [← add_assoc, igTerm_succ, pow_succ]
    refine mul_le_mul ih ?_ (by positivity) (by positivity)
    rw [div_le_iff₀ (by positivity)]
    refine hr.trans (mul_le_mul_of_nonneg_left ?_ hr0)
    push_cast
    have : (0 : ℝ) ≤ n := by positivity
    linarith

/-- The part of the series regime with `x ≤ a`, split as in the proof. -/
theorem series_cases {a x : ℝ} (ha : 0 < a) (has : ¬ asymRegime a x) (h : x ≤ 1 ∨ x ≤ a) :
    x ≤ 1 ∨ (x ≤ a ∧ a ≤ 20) ∨ (x ≤ 0.7 * a ∧ a < 200) ∨ (x ≤ a ∧ a = 200) ∨
      (200 < a ∧ x ≤ a - 4.5 * √a) := by
  rcases h with h | h
  · exact Or.inl h
  right
  unfold asymRegime at has
  push Not at has
  obtain ⟨h1, h2⟩ := has
  rw [abs_of_nonpos (by linarith), le_div_iff₀ ha] at h1
  rcases le_or_gt a 20 with h3 | h3
  · exact Or.inl ⟨h, h3⟩
  rcases lt_trichotomy a 200 with h4 | h4 | h4
  · right; left
    exact ⟨by have := h1 h3 h4; norm_num at this ⊢; linarith, h4⟩
  · right; right; left
    exact ⟨h, h4⟩
  · right; right; right
    refine ⟨h4, ?_⟩
    have h5 := h2 h4
    have hs : 0 < √a := sqrt_pos.2 ha
    rw [abs_of_nonpos (by linarith), div_le_div_iff₀ hs ha] at h5
    have e : √a * √a = a := mul_self_sqrt ha.le
    have h6 : √a * (4.5 * √a) ≤ √a * (-(x - a)) := by nlinarith
    have := le_of_mul_le_mul_left h6 hs
    linarith

/-- After `MAXITER` iterations the terms are below `2^(-52)`. -/
theorem igTerm_final {a x : ℝ} (ha : 0 < a) (ha2 : a ≤ 50000) (hx : 0 ≤ x)
    (has : ¬ asymRegime a x) (h : x ≤ 1 ∨ x ≤ a) : igTerm a x 2000 ≤ 1 / 2 ^ 52 := by
  rcases series_cases ha has h with h1 | ⟨h1, h2⟩ | ⟨h1, h2⟩ | ⟨h1, h2⟩ | ⟨h1, h2⟩
  · have := igTerm_le_pow ha hx h 1 (r := 1 / 2) (by norm_num; linarith) (by norm_num) 1999
    refine this.trans ?_
    rw [one_div_pow]
    exact one_div_pow_le_one_div_pow_of_le (by norm_num) (by norm_num)
  · have := igTerm_le_pow ha hx h 1000 (r := 1 / 2) (by norm_num; linarith) (by norm_num) 1000
    refine this.trans ?_
    rw [one_div_pow]
    exact one_div_pow_le_one_div_pow_of_le (by norm_num) (by norm_num)
  · have := igTerm_le_pow ha hx h 1000 (r := 1 / 2) (by norm_num at h1 ⊢; linarith) (by norm_num) 1000
    refine this.trans ?_
    rw [one_div_pow]
    exact one_div_pow_le_one_div_pow_of_le (by norm_num) (by norm_num)
  · have := igTerm_le_pow ha hx h 1000 (r := 1 / 2) (by norm_num; linarith) (by norm_num) 1000
    refine this.trans ?_
    rw [one_div_pow]
    exact one_div_pow_le_one_div_pow_of_le (by norm_num) (by norm_num)
  · have hs : 0 < √a := sqrt_pos.2 ha
    have hs2 : √a ≤ 224 := sqrt_le_iff.2 ⟨by norm_num, by norm_num; linarith⟩
    have e : √a * √a = a := mul_self_sqrt ha.le
    have h3 : x ≤ exp (-4.5 / √a) * (a + ((0 : ℕ) + 1)) := by
      have h4 := add_one_le_exp (-4.5 / √a)
      have h5 : (-4.5 / √a + 1) * a = a - 4.5 * √a := by
        rw [add_mul, one_mul, div_mul_eq_mul_div, ← e, mul_div_assoc, mul_self_sqrt ha.le,
            show a / √a = √a from div_sqrt]; ring
      have h6 := exp_pos (-4.5 / √a)
      calc x ≤ (-4.5 / √a + 1) * a := by rw [h5]; exact h2
        _ ≤ exp (-4.5 / √a) * a := mul_le_mul_of_nonneg_right h4 ha.le
        _ ≤ _ := mul_le_mul_of_nonneg_left (by push_cast; linarith) h6.le
    have := igTerm_le_pow ha hx h 0 h3 (exp_pos _).le 2000
    rw [zero_add] at this
    refine this.trans ?_
    rw [← exp_nat_mul]
    have h7 : ((2000 : ℕ) : ℝ) * (-4.5 / √a) ≤ -40 := by
      rw [mul_div_assoc', div_le_iff₀ hs]; norm_num; linarith
    refine (exp_le_exp.2 h7).trans ?_
    have h8 : exp (-40) = (exp 1 ^ 40)⁻¹ := by
      rw [exp_neg, ← exp_nat_mul]; norm_num
    rw [h8, ← one_div]
    refine one_div_le_one_div_of_le (by positivity) ?_
    have h9 : (2.7 : ℝ) ^ 40 ≤ exp 1 ^ 40 :=
      pow_le_pow_left₀ (by norm_num) (by have := exp_one_gt_d9; norm_num at this ⊢; linarith) _
    refine le_trans ?_ h9
    norm_num

/-- The ratio of tail and last term. -/
theorem igTerm_ratio {a x : ℝ} (ha : 0 < a) (ha2 : a ≤ 50000) (hx : 0 ≤ x)
    (has : ¬ asymRegime a x) (h : x ≤ 1 ∨ x ≤ a) {N : ℕ} (hN : 0 < N) :
    x / (a + (N + 1) - x) ≤ 100 := by
  have hN1 : (1 : ℝ) ≤ N := by exact_mod_cast hN
  have hd : 0 < a + (N + 1) - x := by rcases h with h | h <;> linarith
  rw [div_le_iff₀ hd]
  rcases series_cases ha has h with h1 | ⟨h1, h2⟩ | ⟨h1, h2⟩ | ⟨h1, h2⟩ | ⟨h1, h2⟩
  · linarith
  · linarith
  · norm_num at h1; linarith
  · linarith
  · have hs : 0 < √a := sqrt_pos.2 ha
    have hs2 : √a ≤ 224 := sqrt_le_iff.2 ⟨by norm_num, by norm_num; linarith⟩
    have e : √a * √a = a := mul_self_sqrt ha.le
    nlinarith

/-- The series part of `igam_series` in its regime. -/
theorem igamSeries_sum {eps a x : ℝ} (ha : 0 < a) (ha2 : a ≤ 50000) (hx : 0 < x)
    (he : 1 / 2 ^ 52 ≤ eps) (has : ¬ asymRegime a x) (h : x ≤ 1 ∨ x ≤ a) :
    igamSeriesLoop eps x MAXITER a 1 1 ≤ ∑' n, igTerm a x n ∧
      (∑' n, igTerm a x n) - igamSeriesLoop eps x MAXITER a 1 1 ≤
        100 * eps * igamSeriesLoop eps x MAXITER a 1 1 ∧
      1 ≤ igamSeriesLoop eps x MAXITER a 1 1 ∧
      igamSeriesLoop eps x MAXITER a 1 1 ≤ 2001 := by
  obtain ⟨N, hN, e, -, hstop⟩ := igamSeriesLoop_start eps a x
  rw [e]
  have hnn := igTerm_nonneg ha hx.le
  have hs := summable_igTerm ha hx.le
  have heps : 0 < eps := lt_of_lt_of_le (by positivity) he
  have h1 : 1 ≤ ∑ k ∈ range (N + 1), igTerm a x k := by
    have := single_le_sum (f := igTerm a x) (fun i _ => hnn i) (mem_range.2 (Nat.succ_pos N))
    simpa [igTerm] using this
  have hst : 0 < N ∧ igTerm a x N ≤ eps * ∑ k ∈ range (N + 1), igTerm a x k := by
    rcases hstop with ⟨rfl, h2⟩ | h2
    · exfalso
      have h3 := igTerm_final ha ha2 hx.le has h
      nlinarith
    · exact h2
  refine ⟨hs.sum_le_tsum _ fun i _ => hnn i, ?_, h1, ?_⟩
  · have hN1 : (1 : ℝ) ≤ N := by exact_mod_cast hst.1
    have hd : x < a + (N + 1) := by rcases h with h | h <;> linarith
    have ht := igTerm_tail ha hx.le N hd
    have hr := igTerm_ratio ha ha2 hx.le has h hst.1
    refine ht.trans ((mul_le_mul_of_nonneg_left hr (hnn N)).trans ?_)
    nlinarith [hst.2]
  · have : ∑ k ∈ range (N + 1), igTerm a x k ≤ ∑ k ∈ range (N + 1), (1 : ℝ) :=
      sum_le_sum fun k _ => igTerm_le_one ha hx.le h k
    refine this.trans ?_
    rw [sum_const, card_range, nsmul_eq_mul, mul_one]
    exact_mod_cast Nat.succ_le_succ hN

theorem exp_underflow : exp (-709.78 : ℝ) ≤ 1 / 10 ^ 300 := by
  have h1 : exp (-709.78 : ℝ) ≤ exp (-709) := exp_le_exp.2 (by norm_num)
  have h8 : exp (-709) = (exp 1 ^ 709)⁻¹ := by
    rw [exp_neg, ← exp_nat_mul]; norm_num
  refine h1.trans ?_
  rw [h8, ← one_div]
  refine one_div_le_one_div_of_le (by positivity) ?_
  have h9 : (2.7 : ℝ) ^ 709 ≤ exp 1 ^ 709 :=
    pow_le_pow_left₀ (by norm_num) (by have := exp_one_gt_d9; norm_num at this ⊢; linarith) _
  refine le_trans ?_ h9
  norm_num

theorem igamSeries_spec {eps a x : ℝ} (ha : 1 / 10 ^ 200 ≤ a) (ha2 : a ≤ 50000) (hx : 0 < x)
    (he : 1 / 2 ^ 52 ≤ eps) (he1 : eps ≤ 1) (has : ¬ asymRegime a x) (h : x ≤ 1 ∨ x ≤ a) :
    ∃ v, igamSeries eps a x = some v ∧
      (|v - incP a x| ≤ (1 / 10 ^ 14 + 100 * eps) * incP a x ∨
        v = 0 ∧ incP a x ≤ 1 / 10 ^ 90) := by
  have ha0 : 0 < a := lt_of_lt_of_le (by positivity) ha
  have hG := Gamma_pos_of_pos ha0
  obtain ⟨v, hv, hv2⟩ := C99_igam_fac ha0 hx
  obtain ⟨h1, h2, h3, h4⟩ := igamSeries_sum ha0 ha2 hx he has h
  have hP := incP_series ha0 hx
  rw [Gamma_add_one ha0.ne'] at hP
  set f := x ^ a * exp (-x) / Gamma a with hf
  have hf0 : 0 < f := by positivity
  have hP' : incP a x = f / a * ∑' n, igTerm a x n := by
    rw [hP, hf]; field_simp
  set S := ∑' n, igTerm a x n
  set SN := igamSeriesLoop eps x MAXITER a 1 1
  rw [igamSeries, hv]
  refine ⟨if v = 0 then 0 else SN * v / a, rfl, ?_⟩
  have hund : f < exp (-709.78) → incP a x ≤ 1 / 10 ^ 90 := by
    intro hlt
    have h5 : f ≤ 1 / 10 ^ 300 := hlt.le.trans exp_underflow
    have h6 : S ≤ 10 ^ 6 := by nlinarith
    have h7 : f / a ≤ 1 / 10 ^ 100 := by
      rw [div_le_iff₀ ha0]
      refine h5.trans ?_
      have : 1 / 10 ^ 100 * (1 / 10 ^ 200) ≤ 1 / 10 ^ 100 * a :=
        mul_le_mul_of_nonneg_left ha (by positivity)
      refine le_trans ?_ this
      norm_num
    rw [hP']
    calc f / a * S ≤ 1 / 10 ^ 100 * 10 ^ 6 := mul_le_mul h7 h6 (by linarith) (by positivity)
      _ ≤ _ := by norm_num
  by_cases hv0 : v = 0
  · right
    rw [if_pos hv0]
    refine ⟨rfl, ?_⟩
    rcases hv2 with hv2 | ⟨-, hlt⟩
    · exfalso
      rw [hv0, zero_sub, abs_neg, abs_of_pos hf0] at hv2
      have : f * (1 - 1 / 10 ^ 14) ≤ 0 := by linarith
      have h5 : 0 < f * (1 - 1 / 10 ^ 14) := mul_pos hf0 (by norm_num)
      linarith
    · exact hund hlt
  · left
    rw [if_neg hv0]
    rcases hv2 with hv2 | ⟨h5, -⟩
    swap
    · exact absurd h5 hv0
    have e : SN * v / a - incP a x = (v - f) * (SN / a) - f / a * (S - SN) := by
      rw [hP']; ring
    rw [e]
    refine (abs_sub _ _).trans ?_
    have hSN : 0 < SN := by linarith
    rw [abs_mul, abs_of_pos (div_pos hSN ha0), abs_of_nonneg
      (mul_nonneg (div_pos hf0 ha0).le (by linarith)), hP']
    have h5 : |v - f| * (SN / a) ≤ 1 / 10 ^ 14 * (f / a * S) := by
      calc |v - f| * (SN / a) ≤ 1 / 10 ^ 14 * f * (SN / a) :=
            mul_le_mul_of_nonneg_right hv2 (by positivity)
        _ = 1 / 10 ^ 14 * (f / a * SN) := by ring
        _ ≤ _ := by gcongr
    have heps : 0 < eps := lt_of_lt_of_le (by positivity) he
    have h6 : f / a * (S - SN) ≤ 100 * eps * (f / a * S) := by
      calc f / a * (S - SN) ≤ f / a * (100 * eps * SN) :=
            mul_le_mul_of_nonneg_left h2 (by positivity)
        _ = 100 * eps * (f / a * SN) := by ring
        _ ≤ _ := by gcongr
    linarith

/-- **C100.** In its power-series regime (everywhere with `x ≤ 1` or `x ≤ a`, outside the band
around `x = a` handled by the asymptotic expansion), for `10⁻²⁰⁰ ≤ a ≤ 50000`, `gammainc` returns
`P(a,x)` with relative error at most `10⁻¹⁴ + 100 eps`; the only exception is an underflow to 0
when `P(a,x) ≤ 10⁻⁹⁰`. -/
theorem C100_gammainc_series {eps a x : ℝ} (d : ℕ → ℕ → ℝ) (ha : 1 / 10 ^ 200 ≤ a)
    (ha2 : a ≤ 50000) (hx : 0 < x) (he : 1 / 2 ^ 52 ≤ eps) (he1 : eps ≤ 1)
    (has : ¬ asymRegime a x) (h : x ≤ 1 ∨ x ≤ a) :
    ∃ v, gammainc eps d a x = some v ∧
      (|v - incP a x| ≤ (1 / 10 ^ 14 + 100 * eps) * incP a x ∨
        v = 0 ∧ incP a x ≤ 1 / 10 ^ 90) := by
  have ha0 : 0 < a := lt_of_lt_of_le (by positivity) ha
  have e : gammainc eps d a x = igamSeries eps a x := by
    unfold gammainc
    rw [if_neg (by push Not; exact ⟨hx.le, ha0.le⟩), if_neg ha0.ne', if_neg hx.ne', if_neg has,
      if_neg]
    rcases h with h | h
    · exact fun h1 => absurd h1.1 (not_lt.2 h)
    · exact fun h1 => absurd h1.2 (not_lt.2 h)
  rw [e]
  exact igamSeries_spec ha ha2 hx he he1 has h

example : ¬ asymRegime 5 3 ∧ (3 : ℝ) ≤ 5 ∧ (1 / 10 ^ 200 : ℝ) ≤ 5 := by
  unfold asymRegime; norm_num

/-- **C100, values at the edges.** -/
theorem C100_gammainc_edge (eps : ℝ) (d : ℕ → ℕ → ℝ) :
    (∀ a x, x < 0 ∨ a < 0 → gammainc eps d a x = none) ∧
    (∀ a, 0 < a → gammainc eps d a 0 = some 0) ∧
    (∀ x, 0 < x → gammainc eps d 0 x = some 1) ∧ gammainc eps d 0 0 = none := by
  refine ⟨fun a x h => ?_, fun a h => ?_, fun x h => ?_, ?_⟩
  · rw [gammainc, if_pos h]
  · rw [gammainc, if_neg (by push Not; exact ⟨le_rfl, h.le⟩), if_neg h.ne', if_pos rfl]
  · rw [gammainc, if_neg (by push Not; exact ⟨h.le, le_rfl⟩), if_pos rfl, if_pos h]
  · rw [gammainc, if_neg (by push Not; exact ⟨le_rfl, le_rfl⟩), if_pos rfl, if_neg (lt_irrefl _)]

/-- **C100, truncation.** The bound on `a` is needed: at `a = 10¹⁰`, five standard deviations below
`a`, the 2000 iterations do not suffice and the returned value is less than half of `P(a,x)`,
whatever the tolerance `eps`. -/
theorem C100_gammainc_truncated (eps : ℝ) (d : ℕ → ℕ → ℝ) :
    ∃ v, gammainc eps d (10 ^ 10) (10 ^ 10 - 5 * 10 ^ 5) = some v ∧
      v < incP (10 ^ 10) (10 ^ 10 - 5 * 10 ^ 5) / 2 := by
  set a : ℝ := 10 ^ 10 with ha
  set x : ℝ := 10 ^ 10 - 5 * 10 ^ 5 with hx
  have ha0 : 0 < a := by norm_num [ha]
  have hx0 : 0 < x := by norm_num [hx]
  have hxa : x ≤ a := by norm_num [hx, ha]
  have hG := Gamma_pos_of_pos ha0
  have hs : √a = 10 ^ 5 := by
    rw [ha, show (10 : ℝ) ^ 10 = (10 ^ 5) ^ 2 by norm_num, sqrt_sq (by positivity)]
  have has : ¬ asymRegime a x := by
    unfold asymRegime
    rw [hs]
    norm_num [ha, hx]
  have e : gammainc eps d a x = igamSeries eps a x := by
    unfold gammainc
    rw [if_neg (by push Not; exact ⟨hx0.le, ha0.le⟩), if_neg ha0.ne', if_neg hx0.ne', if_neg has,
      if_neg (fun h1 => absurd h1.2 (not_lt.2 hxa))]
  rw [e]
  obtain ⟨v, hv, hv2⟩ := C99_igam_fac ha0 hx0
  obtain ⟨N, hN, e2, -, -⟩ := igamSeriesLoop_start eps a x
  have hnn := igTerm_nonneg ha0 hx0.le
  have hsum := summable_igTerm ha0 hx0.le
  have hP := incP_series ha0 hx0
  rw [Gamma_add_one ha0.ne'] at hP
  set f := x ^ a * exp (-x) / Gamma a with hf
  have hf0 : 0 < f := by positivity
  have hP' : incP a x = f / a * ∑' n, igTerm a x n := by
    rw [hP, hf]; field_simp
  have hN' : ∑ k ∈ range (N + 1), igTerm a x k ≤ 2001 := by
    have : ∑ k ∈ range (N + 1), igTerm a x k ≤ ∑ k ∈ range (N + 1), (1 : ℝ) :=
      sum_le_sum fun k _ => igTerm_le_one ha0 hx0.le (Or.inr hxa) k
    refine this.trans ?_
    rw [sum_const, card_range, nsmul_eq_mul, mul_one]
    exact_mod_cast Nat.succ_le_succ hN
  have hlow : ∀ n : ℕ, n ≤ 10000 → 1 - n * (5.2 / 10 ^ 5) ≤ igTerm a x n := by
    intro n
    induction n with
    | zero => intro _; simp [igTerm]
    | succ n ih =>
      intro hn
      have h1 := ih (by omega)
      have hn' : (n : ℝ) + 1 ≤ 10000 := by exact_mod_cast hn
      have hq : 1 - 5.2 / 10 ^ 5 ≤ x / (a + (n + 1)) := by
        rw [le_div_iff₀ (by positivity)]
        norm_num [ha, hx]
        linarith
      rw [igTerm_succ]
      have h2 : 0 ≤ 1 - n * (5.2 / 10 ^ 5 : ℝ) := by norm_num; linarith
      have h3 := mul_le_mul h1 hq (by norm_num) (hnn n)
      refine le_trans ?_ h3
      push_cast
      nlinarith
  have hS : 4500 ≤ ∑' n, igTerm a x n := by
    obtain ⟨M, hM⟩ : ∃ M : ℕ, M = 10000 := ⟨_, rfl⟩
    have h1 : ∑ k ∈ range M, (0.48 : ℝ) ≤ ∑ k ∈ range M, igTerm a x k := by
      refine sum_le_sum fun k hk => ?_
      have hk2 : k < M := mem_range.1 hk
      refine le_trans ?_ (hlow k (by omega))
      have : (k : ℝ) ≤ 10000 := by rw [hM] at hk2; exact_mod_cast hk2.le
      norm_num; linarith
    have h2 := hsum.sum_le_tsum (range M) fun i _ => hnn i
    refine le_trans ?_ (h1.trans h2)
    rw [sum_const, card_range, nsmul_eq_mul, hM]
    norm_num
  rw [igamSeries, hv, e2]
  clear_value f
  clear hs has
  clear_value a x
  refine ⟨if v = 0 then 0 else (∑ k ∈ range (N + 1), igTerm a x k) * v / a, rfl, ?_⟩
  have hPpos : 0 < incP a x := by
    rw [hP']; exact mul_pos (div_pos hf0 ha0) (by linarith)
  split_ifs with h0
  · linarith
  have hv3 : v ≤ 1.1 * f := by
    rcases hv2 with h | ⟨h, -⟩
    · have := (abs_le.1 h).2
      norm_num at this ⊢; linarith
    · exact absurd h h0
  have hvpos : 0 ≤ v ∨ v < 0 := le_or_gt 0 v
  have h6 : (∑ k ∈ range (N + 1), igTerm a x k) * v ≤ 2001 * (1.1 * f) := by
    have hsn : 0 ≤ ∑ k ∈ range (N + 1), igTerm a x k := sum_nonneg fun k _ => hnn k
    calc _ ≤ (∑ k ∈ range (N + 1), igTerm a x k) * (1.1 * f) := mul_le_mul_of_nonneg_left hv3 hsn
      _ ≤ _ := mul_le_mul_of_nonneg_right hN' (by positivity)
  rw [hP', lt_div_iff₀ (by norm_num), div_mul_eq_mul_div, div_mul_eq_mul_div]
  refine div_lt_div_of_pos_right ?_ ha0
  norm_num at h6 ⊢
  nlinarith

/-- **C100, underflow.** The lower bound on `a` is needed as well: at `a = 10⁻³¹⁰`, `x = 1`, where
`P(a,x) > 1/2`, `igam_fac` underflows and `gammainc` returns 0. -/
theorem C100_gammainc_small_a (eps : ℝ) (d : ℕ → ℕ → ℝ) :
    gammainc eps d (1 / 10 ^ 310) 1 = some 0 ∧ 1 / 2 < incP (1 / 10 ^ 310) 1 := by
  obtain ⟨a, ha⟩ : ∃ a : ℝ, a = 1 / 10 ^ 310 := ⟨_, rfl⟩
  rw [← ha]
  have ha0 : 0 < a := by rw [ha]; positivity
  have ha1 : a ≤ 1 / 10 := by rw [ha]; norm_num
  have hG := Gamma_pos_of_pos ha0
  have hg1 : Gamma (a + 1) = a * Gamma a := Gamma_add_one ha0.ne'
  have hlow : 1 / 2 ≤ Gamma (a + 1) := by
    have h1 : Gamma (a + 1 + 1) = (a + 1) * Gamma (a + 1) := Gamma_add_one (by linarith)
    have h2 : 1 ≤ Gamma (a + 1 + 1) := by
      refine Gamma_two.symm.le.trans ?_
      exact Real.Gamma_strictMonoOn_Ici.monotoneOn (Set.mem_Ici.2 le_rfl)
        (Set.mem_Ici.2 (by linarith)) (by linarith)
    have h3 : 0 < Gamma (a + 1) := Gamma_pos_of_pos (by linarith)
    nlinarith
  have hup : Gamma (a + 1) ≤ 1 := by
    have hc := Real.convexOn_Gamma.2 (Set.mem_Ioi.2 (one_pos (α := ℝ)))
      (Set.mem_Ioi.2 (two_pos (α := ℝ))) (show 0 ≤ 1 - a by linarith) ha0.le (by ring)
    simp only [smul_eq_mul, Gamma_one, Gamma_two, mul_one] at hc
    have e : 1 - a + a * 2 = a + 1 := by ring
    rw [e] at hc
    linarith
  constructor
  · have has : ¬ asymRegime a 1 := by
      unfold asymRegime
      rintro (h | h)
      · linarith [h.1]
      · linarith [h.1]
    unfold gammainc
    rw [if_neg (by push Not; exact ⟨zero_le_one, ha0.le⟩), if_neg ha0.ne', if_neg one_ne_zero,
      if_neg has, if_neg (fun h1 => lt_irrefl _ h1.1), igamSeries]
    have hfac : igamFac a 1 = some 0 := by
      unfold igamFac
      rw [if_pos (by rw [abs_of_pos ha0, abs_of_neg (by linarith)]; norm_num; linarith),
        if_neg (by norm_num), if_neg one_ne_zero]
      simp only
      rw [if_pos]
      rw [log_one, mul_zero, zero_sub, lgamma, abs_of_pos hG]
      have h1 : 709 ≤ log (Gamma a) := by
        rw [le_log_iff_exp_le hG]
        have h2 : 1 / 2 * 10 ^ 310 ≤ Gamma a := by
          have : a * Gamma a * 10 ^ 310 = Gamma a := by rw [ha]; field_simp
          nlinarith
        refine le_trans ?_ h2
        have h8 : exp (709 : ℝ) = exp 1 ^ 709 := by
          rw [← exp_nat_mul]; norm_num
        rw [h8]
        have h9 : exp 1 ^ 709 ≤ (2.7183 : ℝ) ^ 709 :=
          pow_le_pow_left₀ (exp_pos _).le (by have := exp_one_lt_d9; norm_num at this ⊢; linarith) _
        refine h9.trans ?_
        norm_num
      unfold CEPHES_MAXLOG
      norm_num
      linarith
    rw [hfac]
    simp
  · have h := incP_partial ha0 one_pos 2
    have hn := incP_nonneg (a := a + (2 : ℕ)) (by positivity) (zero_le_one (α := ℝ))
    simp only [sum_range_succ, range_zero, sum_empty, zero_add] at h
    simp only [igTerm, range_zero, prod_empty, range_one, prod_singleton, one_rpow, one_mul,
      Nat.cast_zero, zero_add] at h
    have h1 : 0.9 ≤ 1 / (a + 1) := by rw [le_div_iff₀ (by linarith)]; norm_num; linarith
    have h2 : 0.36 ≤ exp (-1) := by
      rw [exp_neg, ← one_div, le_div_iff₀ (exp_pos _)]
      have := exp_one_lt_d9
      norm_num at this ⊢; linarith
    have h3 : exp (-1) ≤ exp (-1) / Gamma (a + 1) := by
      rw [le_div_iff₀ (by linarith)]
      nlinarith [exp_pos (-1 : ℝ)]
    have h4 : 0.36 * (1 + 0.9) ≤ exp (-1) / Gamma (a + 1) * (1 + 1 / (a + 1)) :=
      mul_le_mul (by linarith) (by linarith) (by norm_num) (by positivity)
    rw [h]
    norm_num at h4 hn ⊢
    linarith

/-- `C100_gammainc_edge`: a negative argument, and 0. -/
example (eps : ℝ) (d : ℕ → ℕ → ℝ) := (C100_gammainc_edge eps d).1 2 (-1) (by norm_num)
example (eps : ℝ) (d : ℕ → ℕ → ℝ) := (C100_gammainc_edge eps d).2.1 2 (by norm_num)

end Verif.Special
