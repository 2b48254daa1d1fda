import Verif.Special.TGammaSum

/-!
# `Tgamma(1, a, x)` and `Tgamma(2, a, x)` (C111)
-/

open Complex Finset

namespace Verif.Special

/-! ### The series -/

theorem hypTerm_exp (x : ℝ) (n : ℕ) :
    hypTerm [] [] (-(x : ℂ)) n = (((-1) ^ n * (x ^ n / n.factorial) : ℝ) : ℂ) := by
  simp only [hypTerm, List.map_nil, List.prod_nil, div_one, one_mul]
  push_cast; rw [neg_pow]; ring

theorem rising_quot {a : ℝ} (ha : 0 < a) (n : ℕ) :
    rising (a : ℂ) n / rising ((a : ℂ) + 1) n = ((a / (a + n) : ℝ) : ℂ) := by
  have hk : ∀ k : ℕ, (a : ℂ) + k ≠ 0 := fun k e => by
    have := congrArg re e; simp at this
    have : (0 : ℝ) ≤ k := by positivity
    linarith
  have hr : ∀ n, rising ((a : ℂ) + 1) n ≠ 0 := fun n => by
    refine prod_ne_zero_iff.2 fun k _ => ?_
    have := hk (k + 1); push_cast at this; rwa [add_assoc, add_comm 1]
  induction n with
  | zero => simp [rising, ha.ne']
  | succ n ih =>
    rw [rising_succ, rising_succ, mul_div_mul_comm, ih]
    push_cast
    have h1 := hk n
    have h2 := hk (n + 1)
    push_cast at h2
    rw [add_assoc (a : ℂ) 1, add_comm (1 : ℂ)]
    field_simp

theorem hypTerm_alt {a : ℝ} (ha : 0 < a) (x : ℝ) (n : ℕ) :
    hypTerm [(a : ℂ)] [(a : ℂ) + 1] (-(x : ℂ)) n =
      (((-1) ^ n * (a / (a + n) * (x ^ n / n.factorial)) : ℝ) : ℂ) := by
  have := rising_quot ha n
  simp only [hypTerm, List.map_cons, List.map_nil, List.prod_cons, List.prod_nil, mul_one]
  rw [this]
  push_cast; rw [neg_pow]; ring

/-- The truncated exponential series. -/
theorem hypsum_exp {eps : ℝ} (he1 : eps ≤ 1) {x : ℝ} (hx : 0 < x) {s : ℂ} {N : ℕ}
    (h : hypsum eps [] [] (-(x : ℂ)) N = some s) : ‖s - exp (-x)‖ ≤ eps := by
  rw [C60_hypsum_spec] at h
  obtain ⟨M, -, ⟨h1, -, h3, -⟩, rfl⟩ := h
  set f : ℕ → ℝ := fun n => x ^ n / n.factorial with hf
  simp_rw [hypTerm_exp] at h3 ⊢
  have hfn : ∀ n, 0 ≤ f n := fun n => by rw [hf]; positivity
  have hsum : Summable f := Real.summable_pow_div_factorial x
  rw [norm_real, Real.norm_eq_abs, abs_mul, abs_pow, abs_neg, abs_one, one_pow, one_mul,
    abs_of_nonneg (hfn M)] at h3
  have hd := decreasing_of_lt (r := fun n => x / (n + 1)) 0 M hfn
    (fun n => by rw [hf]; simp only [Nat.factorial_succ]; push_cast; field_simp; ring)
    (fun n _ => by push_cast; gcongr; linarith) (by simpa [hf] using he1) (Nat.zero_le _) h3
  have ht := alternating_tail hsum M hd
  have hexp : ∑' n, (-1) ^ n * f n = Real.exp (-x) := by
    rw [Real.exp_eq_exp_ℝ, NormedSpace.exp_eq_tsum_div]
    exact tsum_congr fun n => by rw [hf, neg_pow]; ring
  rw [hexp] at ht
  have e : (∑ n ∈ range (M + 1), (((-1) ^ n * (x ^ n / n.factorial) : ℝ) : ℂ)) - exp (-x) =
      ((∑ n ∈ range (M + 1), (-1) ^ n * f n - Real.exp (-x) : ℝ) : ℂ) := by push_cast [hf]; rfl
  rw [e, norm_real, Real.norm_eq_abs, abs_sub_comm]
  exact ht.trans h3.le

/-- The truncated series of the incomplete gamma function. -/
theorem hypsum_alt {eps : ℝ} {a x : ℝ} (ha : 0 < a) (hx : 0 < x)
    (hst : x ≤ 1 ∨ eps ≤ a * x / (a + 1)) {s : ℂ} {N : ℕ}
    (h : hypsum eps [(a : ℂ)] [(a : ℂ) + 1] (-(x : ℂ)) N = some s) :
    ‖s - ((a * (Real.Gamma a * incP a x / x ^ a) : ℝ) : ℂ)‖ ≤ eps := by
  rw [C60_hypsum_spec] at h
  obtain ⟨M, -, ⟨h1, -, h3, -⟩, rfl⟩ := h
  set f : ℕ → ℝ := fun n => a / (a + n) * (x ^ n / n.factorial) with hf
  simp_rw [hypTerm_alt ha] at h3 ⊢
  have hfn : ∀ n, 0 ≤ f n := fun n => by rw [hf]; positivity
  have halt := hasSum_altTerm ha hx
  have haf : ∀ n, (-1) ^ n * f n = a * altTerm a x n := fun n => by
    rw [hf, altTerm, neg_pow]; ring
  have hsum : Summable f := by
    refine Summable.of_nonneg_of_le hfn (fun n => ?_) (Real.summable_pow_div_factorial x)
    refine mul_le_of_le_one_left (by positivity) ?_
    rw [div_le_one (by positivity)]
    have : (0 : ℝ) ≤ n := by positivity
    linarith
  rw [norm_real, Real.norm_eq_abs, abs_mul, abs_pow, abs_neg, abs_one, one_pow, one_mul,
    abs_of_nonneg (hfn M)] at h3
  have hr : ∀ n, f (n + 1) = ((a + n) / (a + n + 1) * (x / (n + 1))) * f n := fun n => by
    rw [hf]; simp only [Nat.factorial_succ]; push_cast
    have : (0 : ℝ) < a + n := by positivity
    have : (0 : ℝ) < a + n + 1 := by positivity
    field_simp
    ring
  have hd : ∀ n, M ≤ n → f (n + 1) ≤ f n := by
    rcases hst with hx1 | hst
    · intro n _
      rw [hr]
      refine mul_le_of_le_one_left (hfn n) ?_
      have h1 : (a + n) / (a + n + 1) ≤ 1 := by rw [div_le_one (by positivity)]; linarith
      have h2 : x / (n + 1) ≤ 1 := by
        rw [div_le_one (by positivity)]
        have : (0 : ℝ) ≤ n := by positivity
        linarith
      exact mul_le_one₀ h1 (by positivity) h2
    · refine decreasing_of_lt 1 M hfn hr (fun n hn => ?_) ?_ h1 h3
      · push_cast
        have hn' : (1 : ℝ) ≤ n := by exact_mod_cast hn
        rw [div_mul_div_comm, div_mul_div_comm, div_le_div_iff₀ (by positivity) (by positivity)]
        have key : (a + (n + 1)) * ((a + n + 1) * (n + 1)) ≤
            (a + n) * ((a + (n + 1) + 1) * (n + 1 + 1)) := by
          nlinarith [mul_nonneg ha.le (by linarith : (0:ℝ) ≤ n)]
        nlinarith [mul_le_mul_of_nonneg_left key hx.le]
      · rw [hf]; simp only [Nat.factorial_one, pow_one]; push_cast
        refine hst.trans (le_of_eq ?_)
        field_simp
  have ht := alternating_tail hsum M hd
  have hval : ∑' n, (-1) ^ n * f n = a * (Real.Gamma a * incP a x / x ^ a) := by
    simp_rw [haf]; rw [tsum_mul_left, halt.tsum_eq]
  rw [hval] at ht
  have e : (∑ n ∈ range (M + 1), (((-1) ^ n * (a / (a + n) * (x ^ n / n.factorial)) : ℝ) : ℂ)) -
      ((a * (Real.Gamma a * incP a x / x ^ a) : ℝ) : ℂ) =
      ((∑ n ∈ range (M + 1), (-1) ^ n * f n - a * (Real.Gamma a * incP a x / x ^ a) : ℝ) : ℂ) := by
    push_cast [hf]; rfl
  rw [e, norm_real, Real.norm_eq_abs, abs_sub_comm]
  exact ht.trans h3.le

/-! ### `m = 0` and `m = 1` -/

theorem series_one (z b : ℂ) : meijergSeries1 1 0 (1 - 1) 1 z 1 [b] =
    [{ w := [z], c := [b], alpha := [], beta := [], a := [], b := [], z := -z }] := by
  simp [meijergSeries1]

theorem combSum_one (gam : ℂ → Option ℂ) (hyp : List ℂ → List ℂ → ℂ → Option ℂ) (z b : ℂ) :
    combSum gam hyp (meijergSeries1 1 0 (1 - 1) 1 z 1 [b]) = (hyp [] [] (-z)).map (· * z ^ b) := by
  rw [series_one]
  simp only [combSum, List.foldlM_cons, List.foldlM_nil, CombTerm.value]
  cases hyp [] [] (-z) <;> simp

theorem perturb_one (eps : ℝ) {x : ℝ} (hx : 0 < x) (a : ℝ) :
    (meijergSeries1 1 0 (1 - 1) 1 (x : ℂ) 1 (tgammaArgs 1 a)).any (·.perturb eps) = true ↔
      x < 2 * eps ∧ a < 1 := by
  rw [show tgammaArgs 1 (a : ℂ) = [(a : ℂ) - 1] by simp [tgammaArgs], series_one]
  have hne : ((a : ℂ) - 1 = 0) ↔ a = 1 := by
    rw [sub_eq_zero]; norm_cast
  simp only [List.any_cons, List.any_nil, Bool.or_false, CombTerm.perturb, CombTerm.singular,
    CombTerm.poles, CombTerm.discard]
  simp [abs_of_pos hx, hne, lt_iff_le_and_ne]

theorem Tgamma_one_eq (eps : ℝ) (prec : ℕ) {x : ℝ} (hx : 0 < x) (a : ℝ) :
    Tgamma eps prec 1 a x = .ok ((hypsum eps [] [] (-(x : ℂ)) 6000).map (· * (x : ℂ) ^
      (((if x < 2 * eps ∧ a < 1 then a + combStep prec else a) - 1 : ℝ) : ℂ))) := by
  rw [Tgamma, TgammaWith_eq le_rfl]
  congr 1
  rw [show tgammaArgs 1 (a : ℂ) = [(a : ℂ) - 1] by simp [tgammaArgs]]
  have hp := perturb_one eps hx a
  rw [show tgammaArgs 1 (a : ℂ) = [(a : ℂ) - 1] by simp [tgammaArgs]] at hp
  by_cases h : x < 2 * eps ∧ a < 1
  · rw [if_pos (hp.2 h), if_pos h]
    simp only [perturbFrom, combSum_one, hyper]
    congr 1; funext s; congr 2; push_cast; ring
  · rw [if_neg (fun e => h (hp.1 e)), if_neg h, combSum_one]
    simp only [hyper]
    congr 1; funext s; congr 2; push_cast; ring

/-- **C111 (m = 0).** `Tgamma(0, a, z)` raises. -/
theorem C111_Tgamma_zero (eps : ℝ) (prec : ℕ) (a z : ℂ) :
    Tgamma eps prec 0 a z = .error "length_error" := by
  rw [Tgamma, TgammaWith, if_pos rfl]

/-- **C111 (m = 1), partial.** `Tgamma(1, a, x)` is `x^(a-1) e^(-x)` up to `eps · x^(a-1)`, unless
`x < 2 eps` and `a < 1`; then it is the same function at `a + h` instead of `a`. -/
theorem C111_Tgamma_one_partial {eps : ℝ} (he1 : eps ≤ 1) (prec : ℕ) {a x : ℝ} (hx : 0 < x) {v : ℂ}
    (h : Tgamma eps prec 1 a x = .ok (some v)) :
    let a' := if x < 2 * eps ∧ a < 1 then a + combStep prec else a
    ‖v - TInt 1 a' x‖ ≤ eps * x ^ (a' - 1) := by
  intro a'
  rw [Tgamma_one_eq eps prec hx, Except.ok.injEq, Option.map_eq_some_iff] at h
  obtain ⟨s, hs, rfl⟩ := h
  have hb := hypsum_exp he1 hx hs
  have e : ((TInt 1 a' x : ℝ) : ℂ) = exp (-x) * (x : ℂ) ^ ((a' - 1 : ℝ) : ℂ) := by
    rw [TInt, mul_comm]; push_cast
    rw [ofReal_cpow hx.le]; push_cast; rfl
  rw [e, ← sub_mul, norm_mul, norm_cpow_eq_rpow_re_of_pos hx, ofReal_re]
  exact mul_le_mul_of_nonneg_right hb (Real.rpow_nonneg hx.le _)

theorem term_small {x : ℝ} (hx : 0 < x) (hx1 : x ≤ 1000) : x ^ 6000 / (6000).factorial ≤ 1 / 2 ^ 2000 := by
  have hd : ∀ d : ℕ, x ^ (2000 + d) / ((2000 + d).factorial : ℝ) ≤ Real.exp 1000 / 2 ^ d := by
    intro d
    induction d with
    | zero =>
      rw [pow_zero, div_one, add_zero]
      exact (Real.pow_div_factorial_le_exp x hx.le 2000).trans (Real.exp_le_exp.2 hx1)
    | succ d ih =>
      rw [← add_assoc, Nat.factorial_succ, pow_succ, pow_succ, Nat.cast_mul]
      rw [show x ^ (2000 + d) * x / (((2000 + d + 1 : ℕ) : ℝ) * ((2000 + d).factorial : ℝ)) =
        x ^ (2000 + d) / ((2000 + d).factorial : ℝ) * (x / ((2000 + d + 1 : ℕ) : ℝ)) by field_simp,
        ← div_div, div_eq_mul_one_div (Real.exp 1000 / 2 ^ d)]
      refine mul_le_mul ih ?_ (by positivity) (by positivity)
      rw [div_le_div_iff₀ (by positivity) (by norm_num)]
      push_cast
      have : (0 : ℝ) ≤ d := by positivity
      linarith
  have h := hd 4000
  rw [show 2000 + 4000 = 6000 by norm_num] at h
  refine h.trans ?_
  have h3 : Real.exp 1000 ≤ (2 ^ 2) ^ 1000 := by
    rw [show (1000 : ℝ) = (1000 : ℕ) * 1 by norm_num, Real.exp_nat_mul]
    exact pow_le_pow_left₀ (Real.exp_pos 1).le (by have := Real.exp_one_lt_d9; linarith) _
  rw [← pow_mul] at h3
  rw [div_le_div_iff₀ (by positivity) (by positivity), one_mul]
  calc Real.exp 1000 * 2 ^ 2000 ≤ 2 ^ (2 * 1000) * 2 ^ 2000 :=
        mul_le_mul_of_nonneg_right h3 (by positivity)
    _ = 2 ^ 4000 := by rw [← pow_add]

/-- **C111 (m = 1).** It does return a value for `0 < x ≤ 1000`. -/
theorem C111_Tgamma_one_returns {eps : ℝ} (he : 1 / 2 ^ 1000 ≤ eps) (prec : ℕ) {a x : ℝ} (hx : 0 < x)
    (hx1 : x ≤ 1000) : ∃ v, Tgamma eps prec 1 a x = .ok (some v) := by
  classical
  rw [Tgamma_one_eq eps prec hx]
  have hterm : ∃ N, 1 ≤ N ∧ ‖hypTerm [] [] (-(x : ℂ)) N‖ < eps := by
    refine ⟨6000, by norm_num, ?_⟩
    rw [hypTerm_exp, norm_real, Real.norm_eq_abs, abs_mul, abs_pow, abs_neg, abs_one, one_pow, one_mul,
      abs_of_nonneg (by positivity)]
    refine lt_of_le_of_lt (term_small hx hx1) (lt_of_lt_of_le ?_ he)
    exact one_div_lt_one_div_of_lt (by positivity) (pow_lt_pow_right₀ (by norm_num) (by norm_num))
  have hle : Nat.find hterm ≤ 6000 := by
    refine Nat.find_min' hterm ⟨by norm_num, ?_⟩
    rw [hypTerm_exp, norm_real, Real.norm_eq_abs, abs_mul, abs_pow, abs_neg, abs_one, one_pow, one_mul,
      abs_of_nonneg (by positivity)]
    refine lt_of_le_of_lt (term_small hx hx1) (lt_of_lt_of_le ?_ he)
    exact one_div_lt_one_div_of_lt (by positivity) (pow_lt_pow_right₀ (by norm_num) (by norm_num))
  have hs : hypsum eps [] [] (-(x : ℂ)) 6000 =
      some (∑ n ∈ range (Nat.find hterm + 1), hypTerm [] [] (-(x : ℂ)) n) := by
    rw [C60_hypsum_spec]
    refine ⟨_, hle, ⟨(Nat.find_spec hterm).1, fun n h1 h2 => ?_, (Nat.find_spec hterm).2, by simp⟩, rfl⟩
    have := Nat.find_min hterm h2
    push Not at this
    exact this h1
  rw [hs]
  exact ⟨_, rfl⟩

/-! ### `m = 2` -/

theorem series_two (z a0 b0 b1 : ℂ) : meijergSeries1 2 0 (2 - 1) 2 z 1 [a0, b0, b1] =
    [{ w := [z], c := [b0], alpha := [b1 - b0], beta := [a0 - b0], a := [1 - a0 + b0],
       b := [1 - b1 + b0], z := -z },
     { w := [z], c := [b1], alpha := [b0 - b1], beta := [a0 - b1], a := [1 - a0 + b1],
       b := [1 - b0 + b1], z := -z }] := by
  simp [meijergSeries1, List.range_succ, List.range'_succ]

theorem not_isPole_real {y : ℝ} (h : ∀ n : ℕ, y ≠ -n) : isPole (y : ℂ) = false := by
  rw [Bool.eq_false_iff, Ne, isPole_iff]
  rintro ⟨n, hn⟩
  refine h n ?_
  have := congrArg re hn
  simpa using this

theorem perturb_two {eps : ℝ} {a x : ℝ} (ha : 0 < a) (hn : ∀ n : ℕ, a ≠ n) (hx : 2 * eps ≤ x)
    (hx0 : 0 < x) :
    (meijergSeries1 2 0 (2 - 1) 2 (x : ℂ) 1 (tgammaArgs 2 a)).any (·.perturb eps) = false := by
  rw [show tgammaArgs 2 (a : ℂ) = [0, (a : ℂ) - 1, -1] by simp [tgammaArgs], series_two]
  have p1 : isPole (-1 - ((a : ℂ) - 1)) = false := by
    have := not_isPole_real (y := -a) fun n e => hn n (by linarith)
    rw [← this]; congr 1; push_cast; ring
  have p2 : isPole (0 - ((a : ℂ) - 1)) = false := by
    have := not_isPole_real (y := 1 - a) fun n e => hn (n + 1) (by push_cast; linarith)
    rw [← this]; congr 1; push_cast; ring
  have p3 : isPole (1 - -1 + ((a : ℂ) - 1)) = false := by
    have := not_isPole_real (y := a + 1) fun n e => by
      have : (0 : ℝ) ≤ n := by positivity
      linarith
    rw [← this]; congr 1; push_cast; ring
  have p4 : isPole ((a : ℂ) - 1 - -1) = false := by
    have := not_isPole_real (y := a) fun n e => by
      have : (0 : ℝ) ≤ n := by positivity
      linarith
    rw [← this]; congr 1; push_cast; ring
  have p5 : isPole (0 - (-1 : ℂ)) = false := by
    have := not_isPole_real (y := 1) fun n e => by
      have : (0 : ℝ) ≤ n := by positivity
      linarith
    rw [← this]; congr 1; push_cast; ring
  have p6 : isPole (1 - ((a : ℂ) - 1) + -1) = false := by
    have := not_isPole_real (y := 1 - a) fun n e => hn (n + 1) (by push_cast; linarith)
    rw [← this]; congr 1; push_cast; ring
  have hs : ∀ c : ℂ, decide (‖(x : ℂ)‖ < 2 * eps ∧ c.re ≤ 0 ∧ c ≠ 0) = false := fun c => by
    rw [decide_eq_false_iff_not]
    rintro ⟨h, -⟩
    rw [norm_real, Real.norm_eq_abs, abs_of_pos hx0] at h
    linarith
  simp only [List.any_cons, List.any_nil, Bool.or_false, CombTerm.perturb, CombTerm.singular,
    CombTerm.poles, CombTerm.discard, List.zip_cons_cons, List.zip_nil_right, hs, List.countP_cons,
    List.countP_nil, p1, p2, p3, p4, p5, p6]
  simp

/-- A quotient of two values of `gamma` is a quotient of gamma functions up to `3·10⁻¹³`. -/
theorem gamma_quot {eps : ℝ} (he : 0 < eps) {y z g h : ℂ} (hg : gamma eps y = some g)
    (hh : gamma eps z = some h) (hz : Gamma z ≠ 0) :
    ‖g / h - Gamma y / Gamma z‖ ≤ 3 / 10 ^ 13 * ‖Gamma y / Gamma z‖ := by
  have h1 := C97_gamma_value he hg
  have h2 := C97_gamma_value he hh
  have nz : 0 < ‖Gamma z‖ := norm_pos_iff.2 hz
  have hlow : (1 - 1 / 10 ^ 13) * ‖Gamma z‖ ≤ ‖h‖ := by
    have := norm_sub_norm_le (Gamma z) h
    rw [norm_sub_rev] at this
    linarith
  have hh0 : 0 < ‖h‖ := lt_of_lt_of_le (by positivity) hlow
  have hne : h ≠ 0 := norm_pos_iff.1 hh0
  have e : g / h - Gamma y / Gamma z = ((g - Gamma y) * Gamma z - Gamma y * (h - Gamma z)) / (h * Gamma z) := by
    field_simp; ring
  rw [e, norm_div, norm_div, norm_mul, div_le_iff₀ (by positivity)]
  have b1 : ‖(g - Gamma y) * Gamma z - Gamma y * (h - Gamma z)‖ ≤ 2 / 10 ^ 13 * (‖Gamma y‖ * ‖Gamma z‖) := by
    refine (norm_sub_le _ _).trans ?_
    rw [norm_mul, norm_mul]
    have := mul_le_mul_of_nonneg_right h1 nz.le
    have := mul_le_mul_of_nonneg_left h2 (norm_nonneg (Gamma y))
    linarith
  refine b1.trans ?_
  have e2 : 3 / 10 ^ 13 * (‖Gamma y‖ / ‖Gamma z‖) * (‖h‖ * ‖Gamma z‖) = 3 / 10 ^ 13 * (‖Gamma y‖ * ‖h‖) := by
    field_simp
  rw [e2]
  have := mul_le_mul_of_nonneg_left hlow (norm_nonneg (Gamma y))
  nlinarith [mul_nonneg (norm_nonneg (Gamma y)) nz.le]

theorem TInt_two {a x : ℝ} (ha : 0 < a) : TInt 2 a x = Real.Gamma a * incQ a x / x := by
  rw [incQ, TInt, mul_div_cancel₀ _ (Real.Gamma_pos_of_pos ha).ne']
  simp

theorem combSum_two (gam : ℂ → Option ℂ) (hyp : List ℂ → List ℂ → ℂ → Option ℂ) (t u : CombTerm) {v : ℂ}
    (h : combSum gam hyp [t, u] = some v) :
    ∃ p q, t.value gam hyp = some p ∧ u.value gam hyp = some q ∧ v = p + q := by
  simp only [combSum, List.foldlM_cons, List.foldlM_nil] at h
  cases ht : t.value gam hyp with
  | none => simp [ht] at h
  | some p =>
    cases hu : u.value gam hyp with
    | none => simp [ht, hu] at h
    | some q => refine ⟨p, q, rfl, rfl, ?_⟩; simp [ht, hu] at h; exact h.symm

theorem combSum_two_mk {gam : ℂ → Option ℂ} {hyp : List ℂ → List ℂ → ℂ → Option ℂ} {t u : CombTerm} {p q : ℂ}
    (hp : t.value gam hyp = some p) (hq : u.value gam hyp = some q) : combSum gam hyp [t, u] = some (p + q) := by
  simp [combSum, hp, hq]

/-- **C111 (m = 2), partial.** For `a > 0` that is not an integer and `x ≥ 2 eps`, `Tgamma(2, a, x)` is
`Γ(a,x)/x` with an error that is small compared to the two terms it is the difference of.  The
stopping rule of the series needs `x ≤ 1` or a first term that is not already below `eps`. -/
theorem C111_Tgamma_two_partial {eps : ℝ} (he : 0 < eps) (prec : ℕ) {a x : ℝ} (ha : 0 < a)
    (hn : ∀ n : ℕ, a ≠ n) (hx : 2 * eps ≤ x) (hst : x ≤ 1 ∨ eps ≤ a * x / (a + 1)) {v : ℂ}
    (h : Tgamma eps prec 2 a x = .ok (some v)) :
    ‖v - TInt 2 a x‖ ≤ (2 * eps + 3 / 10 ^ 13) * (x ^ (a - 1) / a) +
      3 / 10 ^ 13 * (Real.Gamma a / x) := by
  have hx0 : 0 < x := by linarith
  rw [Tgamma, TgammaWith_eq (by norm_num), perturb_two ha hn hx hx0, Except.ok.injEq,
    if_neg (by simp), show tgammaArgs 2 (a : ℂ) = [0, (a : ℂ) - 1, -1] by simp [tgammaArgs],
    series_two] at h
  obtain ⟨p, q, hp, hq, rfl⟩ := combSum_two _ _ _ _ h
  obtain ⟨⟨s, hs⟩, ga, gb⟩ := value_some hp
  obtain ⟨⟨s', hs'⟩, ga', gb'⟩ := value_some hq
  rw [value_eq hs ga gb, Option.some.injEq] at hp
  rw [value_eq hs' ga' gb', Option.some.injEq] at hq
  simp only [hyper] at hs hs'
  simp only [List.mem_singleton, forall_eq] at ga gb ga' gb'
  -- the second series is 1
  have hs1 : s' = 1 := by
    have e0 : (1 : ℂ) - 0 + -1 = 0 := by ring
    rw [e0, C60_hypsum_spec] at hs'
    obtain ⟨N, -, ⟨hN, hmin, -, -⟩, rfl⟩ := hs'
    have hz : ∀ n, 1 ≤ n → hypTerm [0] [1 - ((a : ℂ) - 1) + -1] (-(x : ℂ)) n = 0 := by
      intro n hn
      obtain ⟨n, rfl⟩ : ∃ k, n = k + 1 := ⟨n - 1, by omega⟩
      have : rising 0 (n + 1) = 0 := Finset.prod_eq_zero (Finset.mem_range.2 (Nat.succ_pos n)) (by simp)
      simp [hypTerm, this]
    rw [sum_range_succ', hypTerm_zero, Finset.sum_eq_zero fun n _ => hz (n + 1) (by omega), zero_add]
  -- the first one
  have e1 : (1 : ℂ) - 0 + ((a : ℂ) - 1) = a := by ring
  have e2 : (1 : ℂ) - -1 + ((a : ℂ) - 1) = a + 1 := by ring
  rw [e1, e2] at hs
  have hS := hypsum_alt ha hx0 hst hs
  -- the gamma functions
  obtain ⟨g1, hg1⟩ := Option.ne_none_iff_exists'.1 ga
  obtain ⟨g2, hg2⟩ := Option.ne_none_iff_exists'.1 gb
  obtain ⟨g3, hg3⟩ := Option.ne_none_iff_exists'.1 ga'
  obtain ⟨g4, hg4⟩ := Option.ne_none_iff_exists'.1 gb'
  simp only [List.map_cons, List.map_nil, List.prod_cons, List.prod_nil, mul_one,
    List.zip_cons_cons, List.zip_nil_right, gv, hg1, hg2, hg3, hg4, Option.getD_some] at hp hq
  have r1 : (-1 : ℂ) - (a - 1) = -a := by ring
  have r2 : (0 : ℂ) - (a - 1) = 1 - a := by ring
  have r3 : (a : ℂ) - 1 - -1 = a := by ring
  have r4 : (0 : ℂ) - -1 = 1 := by ring
  rw [r1] at hg1; rw [r2] at hg2; rw [r3] at hg3; rw [r4] at hg4
  have hneg : -(a : ℂ) ≠ 0 := by simpa using ha.ne'
  have hG2 : Gamma (1 - a) ≠ 0 := by
    refine Gamma_ne_zero fun m e => hn (m + 1) ?_
    have := congrArg re e; simp at this; push_cast; linarith
  have hquot : Gamma (-(a : ℂ)) / Gamma (1 - a) = ((-(1 / a) : ℝ) : ℂ) := by
    have h1 : Gamma (1 - a) = -a * Gamma (-(a : ℂ)) := by
      rw [← Gamma_add_one _ hneg]; congr 1; ring
    have h2 : Gamma (-(a : ℂ)) ≠ 0 := fun e => hG2 (by rw [h1, e, mul_zero])
    rw [h1]; push_cast
    have : (a : ℂ) ≠ 0 := by exact_mod_cast ha.ne'
    field_simp
  have hquot' : Gamma (a : ℂ) / Gamma 1 = ((Real.Gamma a : ℝ) : ℂ) := by
    rw [Gamma_one, div_one, Gamma_ofReal]
  have q1 := gamma_quot he hg1 hg2 hG2
  have q2 := gamma_quot he hg3 hg4 (by rw [Gamma_one]; exact one_ne_zero)
  rw [hquot, norm_real, Real.norm_eq_abs, abs_neg, abs_of_pos (by positivity)] at q1
  have hGa := Real.Gamma_pos_of_pos ha
  rw [hquot', norm_real, Real.norm_eq_abs, abs_of_pos hGa] at q2
  -- powers of x
  have hxp : (x : ℂ) ^ ((a : ℂ) - 1) = ((x ^ (a - 1) : ℝ) : ℂ) := by
    rw [ofReal_cpow hx0.le]; push_cast; rfl
  have hxm : (x : ℂ) ^ (-1 : ℂ) = ((1 / x : ℝ) : ℂ) := by
    rw [cpow_neg_one]; push_cast; rw [one_div]
  rw [hxp] at hp
  rw [hxm, hs1, one_mul] at hq
  rw [← hp, ← hq]
  set S : ℝ := a * (Real.Gamma a * incP a x / x ^ a) with hSdef
  have hS0 : 0 ≤ S := by
    have := incP_nonneg ha hx0.le; rw [hSdef]; positivity
  have hS1 : S ≤ 1 := by
    have h1 := incP_le ha hx0.le
    rw [Real.Gamma_add_one ha.ne'] at h1
    have hxa := Real.rpow_pos_of_pos hx0 a
    rw [hSdef, ← mul_div_assoc, div_le_one hxa]
    rw [le_div_iff₀ (by positivity)] at h1
    nlinarith
  have hT : TInt 2 a x = -(1 / a) * S * x ^ (a - 1) + Real.Gamma a * (1 / x) := by
    have hpq := incP_add_incQ ha hx0.le
    rw [TInt_two ha, hSdef, Real.rpow_sub_one hx0.ne']
    have hxa := (Real.rpow_pos_of_pos hx0 a).ne'
    have : incQ a x = 1 - incP a x := by linarith
    rw [this]; field_simp; ring
  rw [hT]
  have e : s * g1 / g2 * ((x ^ (a - 1) : ℝ) : ℂ) + g3 / g4 * ((1 / x : ℝ) : ℂ) -
      ((-(1 / a) * S * x ^ (a - 1) + Real.Gamma a * (1 / x) : ℝ) : ℂ) =
      ((s - (S : ℂ)) * (g1 / g2 - ((-(1 / a) : ℝ) : ℂ)) + (s - (S : ℂ)) * ((-(1 / a) : ℝ) : ℂ) +
        (S : ℂ) * (g1 / g2 - ((-(1 / a) : ℝ) : ℂ))) * ((x ^ (a - 1) : ℝ) : ℂ) +
      (g3 / g4 - ((Real.Gamma a : ℝ) : ℂ)) * ((1 / x : ℝ) : ℂ) := by
    push_cast; ring
  rw [e]
  have hxa1 := Real.rpow_pos_of_pos hx0 (a - 1)
  refine (norm_add_le _ _).trans (add_le_add ?_ ?_)
  · rw [norm_mul, norm_real, Real.norm_eq_abs, abs_of_pos hxa1]
    have : (2 * eps + 3 / 10 ^ 13) * (x ^ (a - 1) / a) = ((2 * eps + 3 / 10 ^ 13) * (1 / a)) * x ^ (a - 1) := by
      ring
    rw [this]
    refine mul_le_mul_of_nonneg_right ?_ hxa1.le
    refine (norm_add₃_le ..).trans ?_
    rw [norm_mul, norm_mul, norm_mul, norm_real, norm_real, Real.norm_eq_abs, Real.norm_eq_abs, abs_neg,
      abs_of_pos (show 0 < 1 / a by positivity), abs_of_nonneg hS0]
    have hd : 0 < 1 / a := by positivity
    have m1 : ‖s - (S : ℂ)‖ * ‖g1 / g2 - ((-(1 / a) : ℝ) : ℂ)‖ ≤ eps * (3 / 10 ^ 13 * (1 / a)) :=
      mul_le_mul hS q1 (norm_nonneg _) he.le
    have m2 : ‖s - (S : ℂ)‖ * (1 / a) ≤ eps * (1 / a) := mul_le_mul_of_nonneg_right hS hd.le
    have m3 : S * ‖g1 / g2 - ((-(1 / a) : ℝ) : ℂ)‖ ≤ 1 * (3 / 10 ^ 13 * (1 / a)) :=
      mul_le_mul hS1 q1 (norm_nonneg _) (by norm_num)
    have m4 : eps * (3 / 10 ^ 13 * (1 / a)) ≤ eps * (1 / a) := by
      refine mul_le_mul_of_nonneg_left ?_ he.le
      nlinarith
    nlinarith
  · rw [norm_mul, norm_real, Real.norm_eq_abs, abs_of_pos (show 0 < 1 / x by positivity)]
    have := mul_le_mul_of_nonneg_right q2 (show 0 ≤ 1 / x by positivity)
    refine this.trans (le_of_eq ?_)
    ring

theorem hypTerm_alt_small {eps : ℝ} (he : 1 / 2 ^ 1000 ≤ eps) {a x : ℝ} (ha : 0 < a) (hx : 0 < x) (hx1 : x ≤ 1000) :
    ‖hypTerm [(a : ℂ)] [(a : ℂ) + 1] (-(x : ℂ)) 6000‖ < eps := by
  rw [hypTerm_alt ha, norm_real, Real.norm_eq_abs, abs_mul, abs_pow, abs_neg, abs_one, one_pow, one_mul,
    abs_of_nonneg (by positivity)]
  have hle : a / (a + (6000 : ℕ)) ≤ 1 := by
    rw [div_le_one (by positivity)]
    have : (0 : ℝ) ≤ (6000 : ℕ) := by positivity
    linarith
  refine lt_of_le_of_lt (mul_le_of_le_one_left (by positivity) hle) (lt_of_le_of_lt (term_small hx hx1)
    (lt_of_lt_of_le ?_ he))
  exact one_div_lt_one_div_of_lt (by positivity) (pow_lt_pow_right₀ (by norm_num) (by norm_num))

/-- **C111 (m = 2).** `Tgamma(2, a, x)` returns a number for `a > 0` at a distance of `100 eps` from
the integers and `2 eps ≤ x ≤ 1000`. -/
theorem C111_Tgamma_two_returns {eps : ℝ} (he : 1 / 2 ^ 1000 ≤ eps) (prec : ℕ) {a x : ℝ} (ha : 0 < a)
    (hn : ∀ n : ℤ, 100 * eps ≤ |a - n|) (hx : 2 * eps ≤ x) (hx1 : x ≤ 1000) :
    ∃ v, Tgamma eps prec 2 a x = .ok (some v) := by
  classical
  have he0 : 0 < eps := lt_of_lt_of_le (by positivity) he
  have hx0 : 0 < x := by linarith
  have hna : ∀ n : ℕ, a ≠ n := fun n e => by
    have := hn n
    rw [e] at this
    simp at this
    linarith
  have gnn : ∀ y : ℝ, (∃ n : ℤ, y = n - a) → gamma eps (y : ℂ) ≠ none := by
    rintro y ⟨n, rfl⟩ h
    rw [C97_gamma_poles] at h
    obtain ⟨-, -, h3⟩ := h
    rw [ofReal_re] at h3
    have := hn (n - round ((n : ℝ) - a))
    push_cast at this
    rw [show a - ((n : ℝ) - round ((n : ℝ) - a)) = round ((n : ℝ) - a) - (n - a) by ring] at this
    linarith
  have gp : ∀ y : ℝ, 0 < y → gamma eps (y : ℂ) ≠ none := fun y hy h => by
    rw [C97_gamma_poles, ofReal_re] at h
    linarith [h.2.1]
  -- the first series
  have hterm : ∃ N, 1 ≤ N ∧ ‖hypTerm [(a : ℂ)] [(a : ℂ) + 1] (-(x : ℂ)) N‖ < eps := by
    refine ⟨6000, by norm_num, hypTerm_alt_small he ha hx0 hx1⟩
  have hle : Nat.find hterm ≤ 6000 := Nat.find_min' hterm ⟨by norm_num, hypTerm_alt_small he ha hx0 hx1⟩
  have hs : hyper eps [(a : ℂ)] [(a : ℂ) + 1] (-(x : ℂ)) 6000 =
      some (∑ n ∈ range (Nat.find hterm + 1), hypTerm [(a : ℂ)] [(a : ℂ) + 1] (-(x : ℂ)) n) := by
    rw [hyper, C60_hypsum_spec]
    refine ⟨_, hle, ⟨(Nat.find_spec hterm).1, fun n h1 h2 => ?_, (Nat.find_spec hterm).2, ?_⟩, rfl⟩
    · have := Nat.find_min hterm h2
      push Not at this
      exact this h1
    · intro b hb k _ e
      rw [List.mem_singleton.1 hb] at e
      have := congrArg re e
      simp at this
      have h : (0 : ℝ) ≤ k := by positivity
      linarith
  -- the second series
  have hs' : ∃ s, hyper eps [(0 : ℂ)] [1 - (a : ℂ)] (-(x : ℂ)) 6000 = some s := by
    refine ⟨_, (C60_hypsum_spec _ _ _ _ _ _).2 ⟨1, by norm_num, ⟨le_rfl, fun n h1 h2 => absurd h2 (by omega),
      ?_, fun b hb k hk e => ?_⟩, rfl⟩⟩
    · simp [hypTerm, rising, he0]
    · obtain rfl : k = 0 := by omega
      rw [List.mem_singleton.1 hb] at e
      have := congrArg re e
      simp at this
      exact hna 1 (by push_cast; linarith)
  obtain ⟨s', hs'⟩ := hs'
  rw [Tgamma, TgammaWith_eq (by norm_num), perturb_two ha hna hx hx0,
    if_neg (by simp), show tgammaArgs 2 (a : ℂ) = [0, (a : ℂ) - 1, -1] by simp [tgammaArgs],
    series_two, show (-1 : ℂ) - (a - 1) = ((((0 : ℤ) : ℝ) - a : ℝ) : ℂ) by push_cast; ring,
    show (0 : ℂ) - (a - 1) = ((((1 : ℤ) : ℝ) - a : ℝ) : ℂ) by push_cast; ring,
    show (1 : ℂ) - 0 + ((a : ℂ) - 1) = a by ring, show (1 : ℂ) - -1 + ((a : ℂ) - 1) = a + 1 by ring,
    show (a : ℂ) - 1 - -1 = a by ring, show (0 : ℂ) - -1 = ((1 : ℝ) : ℂ) by push_cast; ring,
    show (1 : ℂ) - 0 + -1 = 0 by ring, show (1 : ℂ) - ((a : ℂ) - 1) + -1 = 1 - a by ring]
  have g1 := gnn _ ⟨0, rfl⟩
  have g2 := gnn _ ⟨1, rfl⟩
  rw [combSum_two_mk (value_eq hs (by simpa only [List.mem_singleton, forall_eq] using g1)
      (by simpa only [List.mem_singleton, forall_eq] using g2))
    (value_eq hs' (by simpa only [List.mem_singleton, forall_eq] using gp _ ha)
      (by simpa only [List.mem_singleton, forall_eq] using gp _ one_pos))]
  exact ⟨_, rfl⟩

/-- In double precision `Tgamma(2, 1/2, 1)` returns, and both theorems apply. -/
example : ∃ v, Tgamma (1 / 2 ^ 52) 53 2 (1 / 2 : ℝ) (1 : ℝ) = .ok (some v) ∧
    ‖v - TInt 2 (1 / 2) 1‖ ≤ 1 / 10 ^ 11 := by
  have hn : ∀ n : ℤ, 1 / 2 ≤ |(1 / 2 : ℝ) - n| := fun n => by
    rcases le_or_gt n 0 with h | h
    · have : (n : ℝ) ≤ 0 := by exact_mod_cast h
      rw [abs_of_pos (by linarith)]; linarith
    · have : (1 : ℝ) ≤ n := by exact_mod_cast h
      rw [abs_of_nonpos (by linarith)]; linarith
  obtain ⟨v, hv⟩ := C111_Tgamma_two_returns (eps := 1 / 2 ^ 52)
    (one_div_le_one_div_of_le (by positivity) (pow_le_pow_right₀ (by norm_num) (by norm_num))) 53
    (a := 1 / 2) (x := 1) (by norm_num) (fun n => le_trans (by norm_num) (hn n)) (by norm_num) (by norm_num)
  refine ⟨v, hv, (C111_Tgamma_two_partial (by positivity) 53 (by norm_num) (fun n e => ?_) (by norm_num)
    (Or.inl le_rfl) hv).trans ?_⟩
  · have h1 := hn n
    rw [Int.cast_natCast, ← e, sub_self, abs_zero] at h1
    norm_num at h1
  · rw [Real.one_rpow, Real.Gamma_one_half_eq]
    have : Real.sqrt Real.pi ≤ 2 := by
      rw [Real.sqrt_le_left (by norm_num)]
      have := Real.pi_lt_four
      linarith
    norm_num
    linarith

end Verif.Special
