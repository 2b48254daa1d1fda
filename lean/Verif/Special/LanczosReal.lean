import Verif.Special.RealPoly
import Verif.Special.IncGammaModel
import Verif.Special.Binet
import Verif.Special.LogConsts
import Mathlib.Analysis.SpecialFunctions.Log.Deriv

/-!
# Accuracy of the Lanczos sum of `gammainc.h:171-202`

`Γ(a) = L(a) ((a + g - 1/2)/e)^(a - 1/2)` to a relative `10⁻¹⁴` for every real `a > 0`.
-/

open Real Filter Topology Finset

namespace Verif.Special

/-- `lanczosNum`, lowest power first. -/
def lanN : List ℚ := [
  56906521.91347156388090791033559122686859,
  103794043.1163445451906271053616070238554,
  86363131.28813859145546927288977868422342,
  43338889.32467613834773723740590533316085,
  14605578.08768506808414169982791359218571,
  3481712.15498064590882071018964774556468,
  601859.6171681098786670226533699352302507,
  75999.29304014542649875303443598909137092,
  6955.999602515376140356310115515198987526,
  449.9445569063168119446858607650988409623,
  19.51992788247617482847860966235652136208,
  0.5098416655656676188125178644804694509993,
  0.006061842346248906525783753964555936883222]

/-- `lanczosDen`, lowest power first. -/
def lanD : List ℚ :=
  [0, 39916800, 120543840, 150917976, 105258076, 45995730, 13339535, 2637558, 357423, 32670, 1925,
   66, 1]

/-- `lanczos_g`. -/
def lanG : ℚ := 6.024680040776729583740234375

theorem hornerN_eq (x : ℝ) : horner x lanczosNum = rev lanN x := by
  simp only [horner, lanczosNum, lanN, rev, List.foldl]; push_cast; ring

theorem hornerD_eq (x : ℝ) : horner x lanczosDen = rev lanD x := by
  simp only [horner, lanczosDen, lanD, rev, List.foldl]; push_cast; ring

theorem lanczosSum_eq (x : ℝ) : lanczosSum x = rev lanN x / rev lanD x := by
  rw [lanczosSum, hornerN_eq, hornerD_eq]

theorem lanG_eq : ((lanG : ℚ) : ℝ) = lanczosG := by
  unfold lanG lanczosG; push_cast; rfl

/-- `fac = a + g - 1/2`, `fac + 1`, `2 fac + 1`, `a + 12`. -/
def pF : List ℚ := [lanG - 1/2, 1]
def pF1 : List ℚ := [lanG + 1/2, 1]
def pW : List ℚ := [2 * lanG, 2]
def pA12 : List ℚ := [12, 1]

/-- `∑_{j<n} 2/(2j+1) w^(2(n-1-j))`. -/
def pS : ℕ → List ℚ
  | 0 => []
  | n + 1 => padd (pmul (ppow pW 2) (pS n)) [2 / (2 * n + 1)]

def pN1 : List ℚ := pshift lanN
def pFF : List ℚ := pmul pF pF1
def pNN : List ℚ := pmul lanN pN1

/-- The numerator of the derivative of the defect. -/
def pP : List ℚ :=
  padd (pmul (pmul (padd (pmul (pder pN1) lanN) (psmul (-1) (pmul (pder lanN) pN1))) pA12)
      (pmul pFF (ppow pW 19)))
    (padd (psmul (-1) (pmul pNN (pmul pFF (ppow pW 19))))
      (padd (pmul (pmul pNN pA12) (pmul pFF (pS 10)))
        (psmul lanG (pmul (pmul pNN pA12) (ppow pW 19)))))

theorem pP_dom : pdom (pmul pP pFF)
    (psmul (1.87 / 10 ^ 14) (pmul pW (pmul (pmul pNN pA12) (ppow pW 19)))) = true := by
  decide +kernel

theorem lanN_all : lanN.all (fun c => decide (0 ≤ c)) = true := by decide +kernel


theorem rev_lanN_pos {x : ℝ} (hx : 0 ≤ x) : 0 < rev lanN x := by
  have h : 0 ≤ rev lanN.tail x := rev_nonneg (by decide +kernel) hx
  have e : rev lanN x = (56906521.91347156388090791033559122686859 : ℚ) + x * rev lanN.tail x := rfl
  rw [e]; have := mul_nonneg hx h; push_cast; positivity

theorem rev_lanD (x : ℝ) : rev lanD x = ∏ k ∈ range 12, (x + k) := by
  simp only [lanD, rev, prod_range_succ, prod_range_zero]; push_cast; ring

theorem rev_lanD_pos {x : ℝ} (hx : 0 < x) : 0 < rev lanD x := by
  rw [rev_lanD]; exact prod_pos fun k _ => by positivity

theorem rev_lanD_succ (x : ℝ) : x * rev lanD (x + 1) = (x + 12) * rev lanD x := by
  simp only [rev_lanD, prod_range_succ, prod_range_zero]; push_cast; ring

/-- `a + g - 1/2`. -/
noncomputable def lFac (a : ℝ) : ℝ := a + lanczosG - 1 / 2

theorem lFac_ge {a : ℝ} (ha : 0 ≤ a) : 5.5 ≤ lFac a := by
  unfold lFac lanczosG; norm_num at *; linarith

/-- The defect of the approximation under `a ↦ a + 1`. -/
noncomputable def lanE (a : ℝ) : ℝ :=
  log (rev lanN (a + 1)) - log (rev lanN a) - log (a + 12) + (a + 1 / 2) * log (lFac a + 1) -
    (a - 1 / 2) * log (lFac a) - 1

/-- Its derivative. -/
noncomputable def lanE' (a : ℝ) : ℝ :=
  rev (pder pN1) a / rev pN1 a - rev (pder lanN) a / rev lanN a - 1 / (a + 12) +
    log (1 + (lFac a)⁻¹) + lanczosG / (lFac a * (lFac a + 1))

theorem lanE_hasDerivAt {a : ℝ} (ha : 0 ≤ a) : HasDerivAt lanE (lanE' a) a := by
  have hF := lFac_ge ha
  have hF0 : lFac a ≠ 0 := by norm_num at hF; linarith
  have hF1 : lFac a + 1 ≠ 0 := by norm_num at hF; linarith
  have h1 : HasDerivAt (fun a => rev lanN (a + 1)) (rev (pder pN1) a) a := by
    have e : (fun a => rev lanN (a + 1)) = rev pN1 := by funext b; rw [pN1, rev_shift]
    rw [e]; exact rev_hasDerivAt pN1 a
  have h2 := rev_hasDerivAt lanN a
  have hp1 := rev_lanN_pos (x := a + 1) (by linarith)
  have hp2 := rev_lanN_pos ha
  have hlF : HasDerivAt lFac 1 a := by
    unfold lFac; simpa using ((hasDerivAt_id a).add_const lanczosG).sub_const (1 / 2)
  have hlF1 : HasDerivAt (fun a => lFac a + 1) 1 a := hlF.add_const 1
  have hA : HasDerivAt (fun a : ℝ => a + 12) 1 a := (hasDerivAt_id a).add_const 12
  have hB : HasDerivAt (fun a : ℝ => a + 1 / 2) 1 a := (hasDerivAt_id a).add_const _
  have hC : HasDerivAt (fun a : ℝ => a - 1 / 2) 1 a := (hasDerivAt_id a).sub_const _
  have h := (((((h1.log hp1.ne').sub (h2.log hp2.ne')).sub (hA.log (by linarith))).add
    (hB.mul (hlF1.log hF1))).sub (hC.mul (hlF.log hF0))).sub_const 1
  refine h.congr_deriv ?_
  have hl : log (1 + (lFac a)⁻¹) = log (lFac a + 1) - log (lFac a) := by
    rw [← log_div hF1 hF0]; congr 1; field_simp
  rw [lanE', hl, show rev pN1 a = rev lanN (a + 1) by rw [pN1, rev_shift]]
  have e1 : a + 1 / 2 = lFac a + 1 - lanczosG := by unfold lFac; ring
  have e2 : a - 1 / 2 = lFac a - lanczosG := by unfold lFac; ring
  rw [e1, e2]
  field_simp
  ring

theorem pS_rev (n : ℕ) {x : ℝ} (hw : rev pW x ≠ 0) :
    rev (pS n) x / rev pW x ^ (2 * n) * rev pW x =
      ∑ k ∈ range n, 2 * (1 / (2 * (k : ℝ) + 1)) * (1 / rev pW x) ^ (2 * k + 1) := by
  induction n with
  | zero => simp [pS, rev]
  | succ n ih =>
    rw [sum_range_succ, ← ih, pS, rev_add, rev_mul, rev_pow]
    have e : rev [2 / (2 * (n : ℚ) + 1)] x = 2 / (2 * (n : ℝ) + 1) := by simp [rev]
    rw [e, one_div_pow, mul_add, mul_one, pow_add, pow_succ (rev pW x) (2 * n)]
    field_simp

theorem rev_pW (a : ℝ) : rev pW a = 2 * lFac a + 1 := by
  have e : rev pW a = 2 * (lanG : ℝ) + a * 2 := by simp [pW, rev]
  rw [e, lanG_eq, lFac]; ring

theorem rev_pF (a : ℝ) : rev pF a = lFac a := by
  have e : rev pF a = (lanG : ℝ) - 1 / 2 + a := by simp [pF, rev]
  rw [e, lanG_eq, lFac]; ring

theorem rev_pF1 (a : ℝ) : rev pF1 a = lFac a + 1 := by
  have e : rev pF1 a = (lanG : ℝ) + 1 / 2 + a := by simp [pF1, rev]
  rw [e, lanG_eq, lFac]; ring

/-- The series of `log (1 + 1/F)` after ten terms. -/
theorem log_tail {F : ℝ} (hF : 5.5 ≤ F) :
    |log (1 + F⁻¹) - ∑ k ∈ range 10, 2 * (1 / (2 * (k : ℝ) + 1)) * (1 / (2 * F + 1)) ^ (2 * k + 1)| ≤
      1 / 10 ^ 20 * (2 * F + 1) / (F * (F + 1)) ^ 2 := by
  have hF' : (11 / 2 : ℝ) ≤ F := by norm_num at hF; linarith
  set u := 1 / (2 * F + 1) with hu
  have hu0 : 0 < u := by positivity
  have hu1 : u ≤ 1 / 12 := one_div_le_one_div_of_le (by norm_num) (by linarith)
  have hs := hasSum_log_one_add_inv (a := F) (by linarith)
  rw [← hs.tsum_eq, ← hs.summable.sum_add_tsum_nat_add 10, add_sub_cancel_left]
  have hg : HasSum (fun k : ℕ => u ^ 21 * (u ^ 2) ^ k) (u ^ 21 * (1 - u ^ 2)⁻¹) :=
    (hasSum_geometric_of_lt_one (by positivity) (by nlinarith)).mul_left _
  have hb := tsum_of_norm_bounded hg
    (f := fun k : ℕ => 2 * (1 / (2 * ((k + 10 : ℕ) : ℝ) + 1)) * u ^ (2 * (k + 10) + 1)) (fun k => by
      rw [norm_of_nonneg (by positivity)]
      have e : u ^ (2 * (k + 10) + 1) = u ^ 21 * (u ^ 2) ^ k := by
        rw [← pow_mul, ← pow_add]; congr 1; ring
      rw [e]
      refine mul_le_of_le_one_left (by positivity) ?_
      rw [mul_one_div, div_le_one (by positivity)]
      push_cast
      have := Nat.cast_nonneg (α := ℝ) k
      linarith)
  refine hb.trans ?_
  have e1 : (2 * F + 1) = 1 / u := by rw [hu]; field_simp
  have e2 : F * (F + 1) = (1 - u ^ 2) / (4 * u ^ 2) := by
    have : F = (1 / u - 1) / 2 := by rw [← e1]; ring
    rw [this]; field_simp; ring
  rw [e1, e2]
  have h1 : 0 < 1 - u ^ 2 := by nlinarith
  have e3 : 1 / 10 ^ 20 * (1 / u) / ((1 - u ^ 2) / (4 * u ^ 2)) ^ 2 =
      16 / 10 ^ 20 * u ^ 3 / (1 - u ^ 2) ^ 2 := by
    field_simp; ring
  rw [e3, ← div_eq_mul_inv, div_le_div_iff₀ h1 (by positivity)]
  have h3 : u ^ 18 ≤ (1 / 12) ^ 18 := pow_le_pow_left₀ hu0.le hu1 18
  have h4 : u ^ 21 * (1 - u ^ 2) ^ 2 ≤ 16 / 10 ^ 20 * u ^ 3 * (1 - u ^ 2) := by
    have h5 : u ^ 21 * (1 - u ^ 2) ≤ 16 / 10 ^ 20 * u ^ 3 := by
      have h6 : u ^ 21 * (1 - u ^ 2) ≤ u ^ 21 := mul_le_of_le_one_right (by positivity) (by nlinarith)
      have h7 : u ^ 21 = u ^ 18 * u ^ 3 := by ring
      have h8 : u ^ 18 * u ^ 3 ≤ 16 / 10 ^ 20 * u ^ 3 := by
        refine mul_le_mul_of_nonneg_right (h3.trans ?_) (by positivity)
        norm_num
      linarith
    nlinarith
  exact h4

/-- The bound of the derivative of the defect. -/
theorem lanE'_bound {a : ℝ} (ha : 0 ≤ a) :
    |lanE' a| ≤ 1.88 / 10 ^ 14 * (2 * lFac a + 1) / (lFac a * (lFac a + 1)) ^ 2 := by
  have hF := lFac_ge ha
  have hF0 : 0 < lFac a := by norm_num at hF; linarith
  have hdom := abs_rev_le pP_dom ha
  have hN := rev_lanN_pos ha
  have hN1 : 0 < rev pN1 a := by rw [pN1, rev_shift]; exact rev_lanN_pos (by linarith)
  have hS := pS_rev 10 (x := a) (by rw [rev_pW]; linarith)
  have hlog := log_tail hF
  rw [rev_pW] at hS
  rw [← hS] at hlog
  simp only [rev_mul, rev_smul, rev_pow, rev_pW, pFF, rev_pF, rev_pF1, pP, pNN, rev_add] at hdom
  have hA : rev pA12 a = a + 12 := by simp [pA12, rev]; ring
  rw [hA, lanG_eq] at hdom
  unfold lanE'
  set F := lFac a
  set W := 2 * F + 1
  have hW : 0 < W := by positivity
  set N := rev lanN a
  set N1 := rev pN1 a
  set dN := rev (pder lanN) a
  set dN1 := rev (pder pN1) a
  set S := rev (pS 10) a
  set G := lanczosG
  have ha12 : 0 < a + 12 := by linarith
  have key : |dN1 / N1 - dN / N - 1 / (a + 12) + S / W ^ (2 * 10) * W + G / (F * (F + 1))| ≤
      1.87 / 10 ^ 14 * W / (F * (F + 1)) ^ 2 := by
    have hQ : 0 < N * N1 * (a + 12) * (F * (F + 1)) ^ 2 * W ^ 19 := by positivity
    have e : dN1 / N1 - dN / N - 1 / (a + 12) + S / W ^ (2 * 10) * W + G / (F * (F + 1)) =
        ((dN1 * N + ((-1 : ℚ) : ℝ) * (dN * N1)) * (a + 12) * (F * (F + 1) * W ^ 19) +
          (((-1 : ℚ) : ℝ) * (N * N1 * (F * (F + 1) * W ^ 19)) +
            (N * N1 * (a + 12) * (F * (F + 1) * S) + G * (N * N1 * (a + 12) * W ^ 19)))) *
          (F * (F + 1)) / (N * N1 * (a + 12) * (F * (F + 1)) ^ 2 * W ^ 19) := by
      push_cast
      field_simp
      ring
    rw [e, abs_div, abs_of_pos hQ, div_le_div_iff₀ hQ (by positivity)]
    refine (mul_le_mul_of_nonneg_right hdom (by positivity)).trans (le_of_eq ?_)
    push_cast
    ring
  have hsum : (1.88 / 10 ^ 14 * W / (F * (F + 1)) ^ 2 : ℝ) =
      1.87 / 10 ^ 14 * W / (F * (F + 1)) ^ 2 + 1 / 10 ^ 16 * W / (F * (F + 1)) ^ 2 := by ring
  have hmono : (1 / 10 ^ 20 * W / (F * (F + 1)) ^ 2 : ℝ) ≤ 1 / 10 ^ 16 * W / (F * (F + 1)) ^ 2 := by
    gcongr <;> norm_num
  rw [hsum]
  have hsplit : dN1 / N1 - dN / N - 1 / (a + 12) + log (1 + F⁻¹) + G / (F * (F + 1)) =
      (dN1 / N1 - dN / N - 1 / (a + 12) + S / W ^ (2 * 10) * W + G / (F * (F + 1))) +
        (log (1 + F⁻¹) - S / W ^ (2 * 10) * W) := by ring
  rw [hsplit]
  refine (abs_add_le _ _).trans (add_le_add key (hlog.trans hmono))

end Verif.Special
