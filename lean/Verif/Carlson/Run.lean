import Verif.Carlson.Model

/-! # Loops and square roots: lemmas about the model -/

namespace Verif.Carlson

/-! ### Loops -/

section loop
variable {σ τ : Type}

theorem loopWhile_spec {cond : σ → Prop} {step : σ → σ} {s : σ} (h : ∃ n, ¬cond (step^[n] s)) :
    ∃ n, loopWhile cond step s = some (step^[n] s) ∧ ¬cond (step^[n] s) ∧ ∀ k < n, cond (step^[k] s) := by
  classical
  refine ⟨Nat.find h, ?_, Nat.find_spec h, fun k hk => not_not.mp (Nat.find_min h hk)⟩
  unfold loopWhile
  rw [dif_pos h]

theorem loopWhile_none {cond : σ → Prop} {step : σ → σ} {s : σ} (h : ¬∃ n, ¬cond (step^[n] s)) :
    loopWhile cond step s = none := by
  unfold loopWhile
  rw [dif_neg h]

theorem iterate_inv {step : σ → σ} (I : σ → Prop) (hI : ∀ s, I s → I (step s)) {s : σ} (h : I s) (n : ℕ) :
    I (step^[n] s) := by
  induction n with
  | zero => exact h
  | succ n ih => rw [Function.iterate_succ_apply']; exact hI _ ih

/-- Simulation of one loop by another. -/
theorem loopWhile_map {cond : σ → Prop} {cond' : τ → Prop} {step : σ → σ} {step' : τ → τ} (f : σ → τ)
    (hs : ∀ s, f (step s) = step' (f s)) (hc : ∀ s, cond' (f s) ↔ cond s) (s : σ) :
    loopWhile cond' step' (f s) = (loopWhile cond step s).map f := by
  classical
  have hit : ∀ n, step'^[n] (f s) = f (step^[n] s) := by
    intro n
    induction n with
    | zero => rfl
    | succ n ih => rw [Function.iterate_succ_apply', Function.iterate_succ_apply', ih, hs]
  have hP : ∀ n, (¬cond' (step'^[n] (f s))) ↔ ¬cond (step^[n] s) := fun n => by rw [hit, hc]
  by_cases h : ∃ n, ¬cond (step^[n] s)
  · have h' : ∃ n, ¬cond' (step'^[n] (f s)) := h.imp fun n hn => (hP n).mpr hn
    unfold loopWhile
    rw [dif_pos h, dif_pos h', Option.map_some, hit]
    congr 3
    exact Nat.find_congr' fun {n} => hP n
  · have h' : ¬∃ n, ¬cond' (step'^[n] (f s)) := fun ⟨n, hn⟩ => h ⟨n, (hP n).mp hn⟩
    rw [loopWhile_none h, loopWhile_none h', Option.map_none]

/-- Termination: the mean stays away from zero and the bound is divided by 4 in every step. -/
theorem loop_terminates {step : σ → σ} (A : σ → ℂ) (pow4 : σ → ℝ) (Good : σ → Prop) (μ : ℝ) (hμ : 0 < μ)
    (hstep : ∀ s, Good s → Good (step s)) (hA : ∀ s, Good s → μ ≤ ‖A s‖) (hp : ∀ s, pow4 (step s) = pow4 s / 4)
    (Q : ℝ) (s : σ) (hs : Good s) : ∃ n, pow4 (step^[n] s) * Q < ‖A (step^[n] s)‖ := by
  have hpn : ∀ n, pow4 (step^[n] s) = pow4 s * (1 / 4) ^ n := by
    intro n
    induction n with
    | zero => simp
    | succ n ih => rw [Function.iterate_succ_apply', hp, ih, pow_succ]; ring
  have ht : Filter.Tendsto (fun n : ℕ => pow4 s * Q * (1 / 4 : ℝ) ^ n) Filter.atTop (nhds (pow4 s * Q * 0)) :=
    (tendsto_pow_atTop_nhds_zero_of_lt_one (by norm_num) (by norm_num)).const_mul _
  rw [mul_zero] at ht
  obtain ⟨n, hn⟩ := (ht.eventually_lt_const hμ).exists
  refine ⟨n, lt_of_lt_of_le ?_ (hA _ (iterate_inv Good hstep hs n))⟩
  rw [hpn]
  calc _ = pow4 s * Q * (1 / 4) ^ n := by ring
    _ < μ := hn

end loop

/-! ### Square roots -/

theorem csqrt_ofReal {x : ℝ} (hx : 0 ≤ x) : csqrt x = (√x : ℝ) := by
  rw [csqrt, Real.sqrt_eq_rpow, Complex.ofReal_cpow hx]
  norm_num

theorem csqrt_sq (z : ℂ) : csqrt z * csqrt z = z := by
  unfold csqrt
  by_cases h : z = 0
  · subst h
    simp
  · rw [← Complex.cpow_add _ _ h]
    norm_num

theorem csqrt_eq_zero {z : ℂ} : csqrt z = 0 ↔ z = 0 := by
  constructor
  · intro h
    rw [← csqrt_sq z, h, mul_zero]
  · rintro rfl
    simp [csqrt]

theorem csqrt_mul_pos {k : ℝ} (hk : 0 < k) (z : ℂ) : csqrt (k * z) = (√k : ℝ) * csqrt z := by
  by_cases h : z = 0
  · subst h
    simp [csqrt]
  · rw [← csqrt_ofReal hk.le]
    unfold csqrt
    have hk' : (k : ℂ) ≠ 0 := by exact_mod_cast hk.ne'
    rw [Complex.cpow_def_of_ne_zero (mul_ne_zero hk' h), Complex.cpow_def_of_ne_zero hk', Complex.cpow_def_of_ne_zero h,
      ← Complex.exp_add, Complex.log_ofReal_mul hk h, add_mul, Complex.ofReal_log hk.le]

theorem csqrt_re (z : ℂ) : 0 ≤ (csqrt z).re := by
  rw [csqrt, one_div, Complex.cpow_inv_two_re]
  positivity

/-- `Re(√a √b) ≥ μ` when `Re a, Re b ≥ μ > 0`. -/
theorem re_csqrt_mul {a b : ℂ} {μ : ℝ} (hμ : 0 < μ) (ha : μ ≤ a.re) (hb : μ ≤ b.re) : μ ≤ (csqrt a * csqrt b).re := by
  have h1 := csqrt_sq a
  have h2 := csqrt_sq b
  have p0 := csqrt_re a
  have u0 := csqrt_re b
  generalize csqrt a = s at *
  generalize csqrt b = t at *
  have e1 : s.re * s.re - s.im * s.im = a.re := by rw [← h1, Complex.mul_re]
  have e2 : t.re * t.re - t.im * t.im = b.re := by rw [← h2, Complex.mul_re]
  rw [Complex.mul_re]
  have hs : s.im ^ 2 < s.re ^ 2 := by nlinarith
  have ht : t.im ^ 2 < t.re ^ 2 := by nlinarith
  have hs' : |s.im| < s.re := by rw [sq_lt_sq, abs_of_nonneg p0] at hs; exact hs
  have ht' : |t.im| < t.re := by rw [sq_lt_sq, abs_of_nonneg u0] at ht; exact ht
  have hpos : 0 < s.re * t.re - s.im * t.im := by
    have : s.im * t.im ≤ |s.im| * |t.im| := by rw [← abs_mul]; exact le_abs_self _
    have : |s.im| * |t.im| < s.re * t.re := mul_lt_mul'' hs' ht' (abs_nonneg _) (abs_nonneg _)
    linarith
  have hsq : μ ^ 2 ≤ (s.re * t.re - s.im * t.im) ^ 2 := by
    have k1 : μ ^ 2 ≤ a.re * b.re := by nlinarith
    have k2 : (s.re * t.re - s.im * t.im) ^ 2 = a.re * b.re + (s.re * t.im - s.im * t.re) ^ 2 := by
      rw [← e1, ← e2]; ring
    rw [k2]
    linarith [sq_nonneg (s.re * t.im - s.im * t.re)]
  exact le_of_sq_le_sq hsq hpos.le
where
  le_of_sq_le_sq {a b : ℝ} (h : a ^ 2 ≤ b ^ 2) (hb : 0 ≤ b) : a ≤ b := abs_le_of_sq_le_sq' h hb |>.2

theorem re_lmOf {a b c : ℂ} {μ : ℝ} (hμ : 0 < μ) (ha : μ ≤ a.re) (hb : μ ≤ b.re) (hc : μ ≤ c.re) :
    3 * μ ≤ (lmOf a b c).re := by
  have h1 := re_csqrt_mul hμ ha hb
  have h2 := re_csqrt_mul hμ ha hc
  have h3 := re_csqrt_mul hμ hb hc
  simp only [lmOf, Complex.add_re]
  linarith

theorem re_add_div4 (a b : ℂ) : ((a + b) / 4).re = (a.re + b.re) / 4 := by
  rw [show (4 : ℂ) = ((4 : ℝ) : ℂ) by norm_num, Complex.div_ofReal_re, Complex.add_re]

theorem lmOf_scale {k : ℝ} (hk : 0 < k) (x y z : ℂ) : lmOf (k * x) (k * y) (k * z) = k * lmOf x y z := by
  have h : ((√k : ℝ) : ℂ) * ((√k : ℝ) : ℂ) = k := by
    rw [← Complex.ofReal_mul, Real.mul_self_sqrt hk.le]
  simp only [lmOf, csqrt_mul_pos hk]
  rw [← h]
  ring

theorem lmOf_swap12 (x y z : ℂ) : lmOf y x z = lmOf x y z := by simp only [lmOf]; ring
theorem lmOf_swap23 (x y z : ℂ) : lmOf x z y = lmOf x y z := by simp only [lmOf]; ring

/-! ### Termination of the four loops away from the cut -/

theorem c_terminates {μ : ℝ} (hμ : 0 < μ) (st : CState) (hx : μ ≤ st.x.re) (hy : μ ≤ st.y.re) (hA : μ ≤ st.A.re) (Q : ℝ) :
    ∃ n, (cStep^[n] st).pow4 * Q < ‖(cStep^[n] st).A‖ := by
  refine loop_terminates CState.A CState.pow4 (fun s => μ ≤ s.x.re ∧ μ ≤ s.y.re ∧ μ ≤ s.A.re) μ hμ ?_ ?_
    (fun _ => rfl) Q st ⟨hx, hy, hA⟩
  · rintro s ⟨h1, h2, h3⟩
    have := re_csqrt_mul hμ h1 h2
    have e : (2 * csqrt s.x * csqrt s.y + s.y).re = 2 * (csqrt s.x * csqrt s.y).re + s.y.re := by
      rw [mul_assoc, Complex.add_re, show (2 : ℂ) = ((2 : ℝ) : ℂ) by norm_num, Complex.re_ofReal_mul]
    simp only [cStep, re_add_div4, e]
    refine ⟨?_, ?_, ?_⟩ <;> linarith
  · rintro s ⟨_, _, h⟩
    exact h.trans ((le_abs_self _).trans (Complex.abs_re_le_norm _))

theorem f_terminates {μ : ℝ} (hμ : 0 < μ) (st : FState) (hx : μ ≤ st.x.re) (hy : μ ≤ st.y.re) (hz : μ ≤ st.z.re)
    (hA : μ ≤ st.A.re) (Q : ℝ) : ∃ n, (fStep^[n] st).pow4 * Q < ‖(fStep^[n] st).A‖ := by
  refine loop_terminates FState.A FState.pow4 (fun s => μ ≤ s.x.re ∧ μ ≤ s.y.re ∧ μ ≤ s.z.re ∧ μ ≤ s.A.re) μ hμ ?_ ?_
    (fun _ => rfl) Q st ⟨hx, hy, hz, hA⟩
  · rintro s ⟨h1, h2, h3, h4⟩
    have := re_lmOf hμ h1 h2 h3
    simp only [fStep, re_add_div4]
    refine ⟨?_, ?_, ?_, ?_⟩ <;> linarith
  · rintro s ⟨_, _, _, h⟩
    exact h.trans ((le_abs_self _).trans (Complex.abs_re_le_norm _))

theorem d_terminates {μ : ℝ} (hμ : 0 < μ) (st : DState) (hx : μ ≤ st.x.re) (hy : μ ≤ st.y.re) (hz : μ ≤ st.z.re)
    (hA : μ ≤ st.A.re) (Q : ℝ) : ∃ n, (dStep^[n] st).pow4 * Q < ‖(dStep^[n] st).A‖ := by
  refine loop_terminates DState.A DState.pow4 (fun s => μ ≤ s.x.re ∧ μ ≤ s.y.re ∧ μ ≤ s.z.re ∧ μ ≤ s.A.re) μ hμ ?_ ?_
    (fun _ => rfl) Q st ⟨hx, hy, hz, hA⟩
  · rintro s ⟨h1, h2, h3, h4⟩
    have := re_lmOf hμ h1 h2 h3
    simp only [dStep, re_add_div4]
    refine ⟨?_, ?_, ?_, ?_⟩ <;> linarith
  · rintro s ⟨_, _, _, h⟩
    exact h.trans ((le_abs_self _).trans (Complex.abs_re_le_norm _))

theorem j_terminates {μ : ℝ} (hμ : 0 < μ) (delta : ℂ) (st : JState) (hx : μ ≤ st.x.re) (hy : μ ≤ st.y.re)
    (hz : μ ≤ st.z.re) (hA : μ ≤ st.A.re) (Q : ℝ) :
    ∃ n, ((jStep delta)^[n] st).pow4 * Q < ‖((jStep delta)^[n] st).A‖ := by
  refine loop_terminates JState.A JState.pow4 (fun s => μ ≤ s.x.re ∧ μ ≤ s.y.re ∧ μ ≤ s.z.re ∧ μ ≤ s.A.re) μ hμ ?_ ?_
    (fun _ => rfl) Q st ⟨hx, hy, hz, hA⟩
  · rintro s ⟨h1, h2, h3, h4⟩
    have := re_lmOf hμ h1 h2 h3
    simp only [jStep, re_add_div4]
    refine ⟨?_, ?_, ?_, ?_⟩ <;> linarith
  · rintro s ⟨_, _, _, h⟩
    exact h.trans ((le_abs_self _).trans (Complex.abs_re_le_norm _))

end Verif.Carlson
