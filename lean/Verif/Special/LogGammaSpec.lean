import Mathlib.Analysis.SpecialFunctions.Gamma.Beta
import Mathlib.Analysis.SpecialFunctions.Stirling
import Mathlib.Analysis.SpecialFunctions.Complex.LogBounds

/-!
# The logarithm of the Gamma function (specification)

`IsLogGamma z L` says that `L` is Euler's limit

  `log Γ(z) = lim_n ( z log n + log n! − Σ_{k≤n} log (z + k) )`

with principal logarithms.  It is the standard branch of `log Γ`: real on the
positive axis and analytic off the negative one.  This file is independent of
the code.
-/

open Complex Filter Topology Finset

namespace Verif.Special

/-- Euler's sequence for `log Γ`. -/
noncomputable def logGammaSeq (z : ℂ) (n : ℕ) : ℂ :=
  z * log n + log (n.factorial : ℂ) - ∑ k ∈ range (n + 1), log (z + k)

/-- `L` is the value of the standard branch of `log Γ` at `z`. -/
def IsLogGamma (z L : ℂ) : Prop := Tendsto (logGammaSeq z) atTop (𝓝 L)

/-- `z` is not a pole of `Γ`. -/
def NotPole (z : ℂ) : Prop := ∀ m : ℕ, z ≠ -m

theorem NotPole.add_ne {z : ℂ} (h : NotPole z) (k : ℕ) : z + k ≠ 0 := by
  intro e; exact h k (eq_neg_of_add_eq_zero_left e)

theorem NotPole.succ {z : ℂ} (h : NotPole z) : NotPole (z + 1) := by
  intro m e
  exact h (m + 1) (by push_cast; linear_combination e)

theorem NotPole.add_nat {z : ℂ} (h : NotPole z) (n : ℕ) : NotPole (z + n) := by
  intro m e
  exact h (m + n) (by push_cast; linear_combination e)

theorem notPole_of_re_pos {z : ℂ} (h : 0 < z.re) : NotPole z := by
  intro m e
  rw [e] at h
  simp at h
  have : (0 : ℝ) ≤ m := by positivity
  linarith

theorem IsLogGamma.unique {z L L' : ℂ} (h : IsLogGamma z L) (h' : IsLogGamma z L') : L = L' :=
  tendsto_nhds_unique h h'

theorem exp_logGammaSeq {z : ℂ} (hz : NotPole z) {n : ℕ} (hn : n ≠ 0) :
    exp (logGammaSeq z n) = GammaSeq z n := by
  have hn' : (n : ℂ) ≠ 0 := Nat.cast_ne_zero.2 hn
  rw [logGammaSeq, exp_sub, exp_add, exp_sum, GammaSeq, cpow_def_of_ne_zero hn',
    exp_log (by exact_mod_cast n.factorial_ne_zero), mul_comm z]
  congr 1
  exact prod_congr rfl fun k _ => exp_log (hz.add_ne k)

/-- The exponential of `log Γ` is `Γ`. -/
theorem IsLogGamma.exp_eq {z L : ℂ} (hz : NotPole z) (h : IsLogGamma z L) :
    exp L = Gamma z := by
  have h1 : Tendsto (fun n => exp (logGammaSeq z n)) atTop (𝓝 (exp L)) :=
    (continuous_exp.tendsto _).comp h
  refine tendsto_nhds_unique h1 ((GammaSeq_tendsto_Gamma z).congr' ?_)
  filter_upwards [eventually_ne_atTop 0] with n hn using (exp_logGammaSeq hz hn).symm

/-- `log (z + n) − log n → 0`. -/
theorem log_add_nat (z : ℂ) :
    Tendsto (fun n : ℕ => log (1 + z / n)) atTop (𝓝 0) := by
  have h : Tendsto (fun n : ℕ => 1 + z / (n : ℂ)) atTop (𝓝 (1 + 0)) :=
    tendsto_const_nhds.add (tendsto_const_div_atTop_nhds_zero_nat z)
  rw [add_zero] at h
  have := (continuousAt_clog (x := 1) (by simp [slitPlane])).tendsto.comp h
  rw [log_one] at this
  exact this

theorem log_nat_mul {n : ℕ} (hn : n ≠ 0) {w : ℂ} (hw : 1 + w / n ≠ 0) :
    log (w + n) = log n + log (1 + w / n) := by
  have hn' : (n : ℂ) ≠ 0 := Nat.cast_ne_zero.2 hn
  have h : w + n = ((n : ℝ) : ℂ) * (1 + w / n) := by
    push_cast; field_simp; ring
  rw [h, log_ofReal_mul (by positivity) hw, natCast_log]

theorem eventually_one_add_ne (w : ℂ) : ∀ᶠ n : ℕ in atTop, 1 + w / (n : ℂ) ≠ 0 := by
  have h : Tendsto (fun n : ℕ => 1 + w / (n : ℂ)) atTop (𝓝 (1 + 0)) :=
    tendsto_const_nhds.add (tendsto_const_div_atTop_nhds_zero_nat w)
  exact h.eventually_ne (by simp)

/-- `log Γ(z+1) = log Γ(z) + log z`. -/
theorem IsLogGamma.succ {z L : ℂ} (h : IsLogGamma z L) : IsLogGamma (z + 1) (L + log z) := by
  have h2 : Tendsto (fun n : ℕ => logGammaSeq z n + log z - log (1 + (z + 1) / n)) atTop
      (𝓝 (L + log z - 0)) := (Tendsto.add h tendsto_const_nhds).sub (log_add_nat (z + 1))
  rw [sub_zero] at h2
  refine h2.congr' ?_
  filter_upwards [eventually_ne_atTop 0, eventually_one_add_ne (z + 1)] with n hn hw
  have e : ∑ k ∈ range (n + 1), log (z + 1 + k) =
      ∑ k ∈ range (n + 1), log (z + k) + log (z + 1 + n) - log z := by
    rw [sum_range_succ, sum_range_succ' (fun k : ℕ => log (z + k))]
    push_cast
    simp only [add_zero]
    have : ∀ k : ℕ, z + 1 + (k : ℂ) = z + ((k : ℂ) + 1) := fun k => by ring
    simp only [this]; ring
  rw [logGammaSeq, logGammaSeq, e, log_nat_mul hn hw]
  ring

theorem IsLogGamma.pred {z L : ℂ} (h : IsLogGamma (z + 1) L) : IsLogGamma z (L - log z) := by
  have h2 : Tendsto (fun n : ℕ => logGammaSeq (z + 1) n - log z + log (1 + (z + 1) / n)) atTop
      (𝓝 (L - log z + 0)) := (Tendsto.sub h tendsto_const_nhds).add (log_add_nat (z + 1))
  rw [add_zero] at h2
  refine h2.congr' ?_
  filter_upwards [eventually_ne_atTop 0, eventually_one_add_ne (z + 1)] with n hn hw
  have e : ∑ k ∈ range (n + 1), log (z + 1 + k) =
      ∑ k ∈ range (n + 1), log (z + k) + log (z + 1 + n) - log z := by
    rw [sum_range_succ, sum_range_succ' (fun k : ℕ => log (z + k))]
    push_cast
    simp only [add_zero]
    have : ∀ k : ℕ, z + 1 + (k : ℂ) = z + ((k : ℂ) + 1) := fun k => by ring
    simp only [this]; ring
  rw [logGammaSeq, logGammaSeq, e, log_nat_mul hn hw]
  ring

theorem IsLogGamma.of_add_nat {z L : ℂ} (n : ℕ) (h : IsLogGamma (z + n) L) :
    IsLogGamma z (L - ∑ k ∈ range n, log (z + k)) := by
  induction n generalizing L with
  | zero => simpa using h
  | succ n ih =>
    have h' : IsLogGamma ((z + n) + 1) L := by
      have : z + n + 1 = z + (n + 1 : ℕ) := by push_cast; ring
      rw [this]; exact h
    have := ih h'.pred
    rw [sum_range_succ]
    convert this using 1; ring

/-- `log Γ(z̄)` is the conjugate of `log Γ(z)` off the real axis. -/
theorem IsLogGamma.conj {z L : ℂ} (hz : z.im ≠ 0) (h : IsLogGamma z L) :
    IsLogGamma (starRingEnd ℂ z) (starRingEnd ℂ L) := by
  have h1 : Tendsto (fun n => starRingEnd ℂ (logGammaSeq z n)) atTop (𝓝 (starRingEnd ℂ L)) :=
    (continuous_conj.tendsto _).comp h
  refine h1.congr fun n => ?_
  have hl : ∀ k : ℕ, starRingEnd ℂ (log (z + k)) = log (starRingEnd ℂ z + k) := by
    intro k
    rw [← log_conj _ ?_]
    · simp
    · intro e
      have := (arg_eq_pi_iff.1 e).2
      simp at this; exact hz this
  simp only [logGammaSeq, map_sub, map_add, map_mul, map_sum, hl, ← natCast_log, conj_ofReal]

/-- On the positive axis `log Γ` is real. -/
theorem IsLogGamma.real {x : ℝ} (hx : 0 < x) {L : ℂ} (h : IsLogGamma x L) : L.im = 0 := by
  have h1 : Tendsto (fun n => (logGammaSeq x n).im) atTop (𝓝 L.im) :=
    (continuous_im.tendsto _).comp h
  refine tendsto_nhds_unique h1 (tendsto_const_nhds.congr fun n => ?_)
  have hl : ∀ k : ℕ, log ((x : ℂ) + k) = ((Real.log (x + k) : ℝ) : ℂ) := by
    intro k; rw [ofReal_log (by positivity)]; push_cast; rfl
  simp only [logGammaSeq, hl, ← natCast_log]
  norm_cast

end Verif.Special
