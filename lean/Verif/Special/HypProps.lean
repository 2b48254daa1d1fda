import Verif.Special.HypModel
import Mathlib.RingTheory.Polynomial.Pochhammer
import Mathlib.Analysis.SpecificLimits.Normed

/-!
# C60: what `hypsum` returns
-/

open Complex Filter Topology

namespace Verif.Special

/-- Specification: the rising factorial `(x)_n = x (x+1) ⋯ (x+n-1)`. -/
noncomputable def rising (x : ℂ) (n : ℕ) : ℂ := ∏ k ∈ Finset.range n, (x + k)

/-- Specification: the `n`-th term of the generalised hypergeometric series `pFq(as; bs; z)`. -/
noncomputable def hypTerm (as bs : List ℂ) (z : ℂ) (n : ℕ) : ℂ :=
  (as.map fun a => rising a n).prod / (bs.map fun b => rising b n).prod * z ^ n / n.factorial

theorem rising_succ (x : ℂ) (n : ℕ) : rising x (n + 1) = rising x n * (x + n) := by
  rw [rising, Finset.prod_range_succ, rising]

/-- `rising` is Mathlib's Pochhammer symbol. -/
theorem rising_eq_pochhammer (x : ℂ) (n : ℕ) : rising x n = (ascPochhammer ℂ n).eval x := by
  induction n with
  | zero => simp [rising]
  | succ n ih => rw [rising_succ, ascPochhammer_succ_eval, ih]

theorem foldl_mul_eq (as : List ℂ) (k : ℕ) (t : ℂ) :
    as.foldl (fun t a => t * (a + (k : ℂ))) t = t * (as.map fun a => a + (k : ℂ)).prod := by
  induction as generalizing t with
  | nil => simp
  | cons a as ih => simp [ih, mul_assoc]

open Classical in
theorem foldl_div_none (bs : List ℂ) (k : ℕ) :
    bs.foldl (fun t b => t.bind fun t => if b + (k : ℂ) = 0 then none else some (t / (b + (k : ℂ))))
      none = none := by
  induction bs with
  | nil => rfl
  | cons b bs ih => simpa using ih

open Classical in
theorem foldl_div_eq (bs : List ℂ) (k : ℕ) (t : ℂ) :
    bs.foldl (fun t b => t.bind fun t => if b + (k : ℂ) = 0 then none else some (t / (b + (k : ℂ))))
      (some t) = if (∀ b ∈ bs, b + (k : ℂ) ≠ 0) then
        some (t / (bs.map fun b => b + (k : ℂ)).prod) else none := by
  induction bs generalizing t with
  | nil => simp
  | cons b bs ih =>
    rw [List.foldl_cons, Option.bind_some]
    by_cases hb : b + (k : ℂ) = 0
    · rw [if_pos hb, foldl_div_none, if_neg]
      intro h; exact h b (by simp) hb
    · rw [if_neg hb, ih]
      by_cases h : ∀ b ∈ bs, b + (k : ℂ) ≠ 0
      · rw [if_pos h, if_pos]
        · rw [List.map_cons, List.prod_cons, div_div]
        · intro c hc; rcases List.mem_cons.1 hc with rfl | hc
          · exact hb
          · exact h c hc
      · rw [if_neg h, if_neg]
        intro h'; exact h fun c hc => h' c (by simp [hc])

theorem hypTerm_zero (as bs : List ℂ) (z : ℂ) : hypTerm as bs z 0 = 1 := by
  simp [hypTerm, rising]

theorem hypTerm_succ (as bs : List ℂ) (z : ℂ) (n : ℕ) :
    hypTerm as bs z (n + 1) = hypTerm as bs z n * (as.map fun a => a + (n : ℂ)).prod /
      (bs.map fun b => b + (n : ℂ)).prod / (n + 1) * z := by
  have key : ∀ l : List ℂ, (l.map fun a => rising a (n + 1)).prod =
      (l.map fun a => rising a n).prod * (l.map fun a => a + (n : ℂ)).prod := by
    intro l; induction l with
    | nil => simp
    | cons a l ih =>
      rw [List.map_cons, List.prod_cons, ih, rising_succ, List.map_cons, List.map_cons,
        List.prod_cons, List.prod_cons]
      ring
  rw [hypTerm, hypTerm, key, key, Nat.factorial_succ]
  push_cast
  rw [pow_succ]
  simp only [div_eq_mul_inv, mul_inv]
  ring

open Classical in
/-- One iteration of the loop computes the next term. -/
theorem hypFactor_eq (as bs : List ℂ) (z : ℂ) (k : ℕ) :
    hypFactor as bs k (hypTerm as bs z k) = if (∀ b ∈ bs, b + (k : ℂ) ≠ 0) then
      some (hypTerm as bs z k * (as.map fun a => a + (k : ℂ)).prod /
        (bs.map fun b => b + (k : ℂ)).prod) else none := by
  rw [hypFactor, foldl_mul_eq]
  exact foldl_div_eq bs k _

/-- Specification: the sum is cut after the first term (other than the leading 1) of modulus
below `eps`, that term has index `N` and is still included. -/
def CutAt (eps : ℝ) (as bs : List ℂ) (z : ℂ) (N : ℕ) : Prop :=
  1 ≤ N ∧ (∀ n, 1 ≤ n → n < N → eps ≤ ‖hypTerm as bs z n‖) ∧ ‖hypTerm as bs z N‖ < eps ∧
    ∀ b ∈ bs, ∀ k < N, b ≠ -(k : ℂ)

theorem hypLoop_spec (eps : ℝ) (as bs : List ℂ) (z : ℂ) (fuel k : ℕ) (s : ℂ)
    (w : ℂ) :
    hypLoop eps as bs z fuel k s (hypTerm as bs z k) = some w ↔
      ∃ N, k < N ∧ N ≤ k + fuel ∧ (∀ n, k < n → n < N → eps ≤ ‖hypTerm as bs z n‖) ∧
        ‖hypTerm as bs z N‖ < eps ∧ (∀ b ∈ bs, ∀ j, k ≤ j → j < N → b + (j : ℂ) ≠ 0) ∧
        w = s + ∑ n ∈ Finset.Ioc k N, hypTerm as bs z n := by
  induction fuel generalizing k s with
  | zero =>
    simp only [hypLoop, add_zero]
    constructor
    · intro h; simp at h
    · rintro ⟨N, h1, h2, -⟩; omega
  | succ fuel ih =>
    rw [hypLoop, hypFactor_eq]
    by_cases hb : ∀ b ∈ bs, b + (k : ℂ) ≠ 0
    · rw [if_pos hb, Option.bind_some]
      simp only [← hypTerm_succ]
      by_cases ht : ‖hypTerm as bs z (k + 1)‖ < eps
      · rw [if_pos ht, Option.some.injEq]
        constructor
        · intro h
          refine ⟨k + 1, by omega, by omega, fun n h1 h2 => by omega, ht, ?_, ?_⟩
          · intro b hb' j h1 h2
            have : j = k := by omega
            rw [this]; exact hb b hb'
          · rw [← h]; simp
        · rintro ⟨N, h1, -, h3, -, -, h6⟩
          have : N = k + 1 := by
            by_contra hN
            exact absurd ht (not_lt.2 (h3 (k + 1) (by omega) (by omega)))
          rw [h6, this]; simp
      · rw [if_neg ht, ih]
        constructor
        · rintro ⟨N, h1, h2, h3, h4, h5, h6⟩
          refine ⟨N, by omega, by omega, ?_, h4, ?_, ?_⟩
          · intro n hn1 hn2
            rcases eq_or_ne n (k + 1) with rfl | hne
            · exact not_lt.1 ht
            · exact h3 n (by omega) hn2
          · intro b hb' j hj1 hj2
            rcases eq_or_ne j k with rfl | hne
            · exact hb b hb'
            · exact h5 b hb' j (by omega) hj2
          · rw [h6, add_assoc]
            congr 1
            rw [← Finset.sum_Ioc_consecutive _ (Nat.le_succ k) h1.le]
            simp
        · rintro ⟨N, h1, h2, h3, h4, h5, h6⟩
          have hN : N ≠ k + 1 := fun h => ht (h ▸ h4)
          refine ⟨N, by omega, by omega, fun n hn1 hn2 => h3 n (by omega) hn2, h4,
            fun b hb' j hj1 hj2 => h5 b hb' j (by omega) hj2, ?_⟩
          rw [h6, add_assoc]
          congr 1
          rw [← Finset.sum_Ioc_consecutive _ (Nat.le_succ k) (by omega : k + 1 ≤ N)]
          simp
    · rw [if_neg hb, Option.bind_none]
      constructor
      · intro h; simp at h
      · rintro ⟨N, h1, h2, h3, h4, h5, h6⟩
        exact absurd (fun b hb' => h5 b hb' k le_rfl h1) hb

/-- **C60.** `hypsum` returns the partial sum of the hypergeometric series up to and including the
first term of modulus below `eps`, if there is one among the first `maxterms`, and NaN otherwise —
also when a lower parameter is a non-positive integer reached before that term. -/
theorem C60_hypsum_spec (eps : ℝ) (as bs : List ℂ) (z s : ℂ) (maxterms : ℕ) :
    hypsum eps as bs z maxterms = some s ↔
      ∃ N ≤ maxterms, CutAt eps as bs z N ∧ s = ∑ n ∈ Finset.range (N + 1), hypTerm as bs z n := by
  rw [hypsum]
  have h0 := hypLoop_spec eps as bs z maxterms 0 1 s
  rw [hypTerm_zero] at h0
  rw [h0]
  have e : ∀ N, (1 : ℂ) + ∑ n ∈ Finset.Ioc 0 N, hypTerm as bs z n =
      ∑ n ∈ Finset.range (N + 1), hypTerm as bs z n := by
    intro N
    rw [Finset.sum_range_succ', hypTerm_zero, add_comm]
    congr 1
    rw [Finset.range_eq_Ico, Finset.sum_Ico_add' (fun n => hypTerm as bs z n) 0 N 1]
    exact Finset.sum_congr (by ext; simp; omega) fun _ _ => rfl
  constructor
  · rintro ⟨N, h1, h2, h3, h4, h5, h6⟩
    refine ⟨N, by omega, ⟨by omega, fun n hn1 hn2 => h3 n (by omega) hn2, h4, ?_⟩, ?_⟩
    · intro b hb k hk h; exact h5 b hb k (by omega) hk (by rw [h]; ring)
    · rw [h6, e]
  · rintro ⟨N, h1, ⟨h2, h3, h4, h5⟩, h6⟩
    refine ⟨N, by omega, by omega, fun n hn1 hn2 => h3 n (by omega) hn2, h4, ?_, ?_⟩
    · intro b hb k _ hk h; exact h5 b hb k hk (by linear_combination h)
    · rw [h6, e]

theorem tendsto_shift_prod (l : List ℂ) :
    Tendsto (fun n : ℕ => (l.map fun a => a + (n : ℂ)).prod / ((n : ℂ) + 1) ^ l.length) atTop
      (𝓝 1) := by
  induction l with
  | nil => simp
  | cons a l ih =>
    have h1 : Tendsto (fun n : ℕ => (a + (n : ℂ)) / ((n : ℂ) + 1)) atTop (𝓝 1) := by
      have h2 : Tendsto (fun n : ℕ => 1 + (a - 1) * (1 / ((n : ℂ) + 1))) atTop
          (𝓝 (1 + (a - 1) * 0)) :=
        (tendsto_one_div_add_atTop_nhds_zero_nat.const_mul _).const_add _
      rw [mul_zero, add_zero] at h2
      refine h2.congr fun n => ?_
      have : (n : ℂ) + 1 ≠ 0 := Nat.cast_add_one_ne_zero n
      field_simp; ring
    have h3 := h1.mul ih
    rw [one_mul] at h3
    refine h3.congr fun n => ?_
    rw [List.map_cons, List.prod_cons, List.length_cons, pow_succ', mul_div_mul_comm]

/-- The ratio of consecutive terms, apart from the factor `z`. -/
noncomputable def termRatio (as bs : List ℂ) (n : ℕ) : ℂ :=
  (as.map fun a => a + (n : ℂ)).prod / (bs.map fun b => b + (n : ℂ)).prod / (n + 1)

theorem hypTerm_succ' (as bs : List ℂ) (z : ℂ) (n : ℕ) :
    hypTerm as bs z (n + 1) = termRatio as bs n * z * hypTerm as bs z n := by
  rw [hypTerm_succ, termRatio]; simp only [div_eq_mul_inv]; ring

theorem tendsto_termRatio_aux (as bs : List ℂ) {L : ℂ}
    (h : Tendsto (fun n : ℕ => ((n : ℂ) + 1) ^ as.length / ((n : ℂ) + 1) ^ (bs.length + 1)) atTop
      (𝓝 L)) :
    Tendsto (termRatio as bs) atTop (𝓝 L) := by
  have h1 := ((tendsto_shift_prod as).div (tendsto_shift_prod bs) one_ne_zero).mul h
  rw [div_one, one_mul] at h1
  refine h1.congr fun n => ?_
  have : (n : ℂ) + 1 ≠ 0 := Nat.cast_add_one_ne_zero n
  simp only [Pi.div_apply, termRatio]
  rw [div_div_div_eq, pow_succ]
  have h2 := pow_ne_zero as.length this
  have h3 := pow_ne_zero bs.length this
  by_cases hB : (bs.map fun b => b + (n : ℂ)).prod = 0
  · simp [hB]
  · field_simp

theorem tendsto_termRatio_zero (as bs : List ℂ) (h : as.length ≤ bs.length) :
    Tendsto (termRatio as bs) atTop (𝓝 0) := by
  refine tendsto_termRatio_aux as bs ?_
  have h1 : Tendsto (fun n : ℕ => (1 / ((n : ℂ) + 1)) ^ (bs.length + 1 - as.length)) atTop
      (𝓝 (0 ^ (bs.length + 1 - as.length))) := tendsto_one_div_add_atTop_nhds_zero_nat.pow _
  rw [zero_pow (by omega)] at h1
  refine h1.congr fun n => ?_
  have : (n : ℂ) + 1 ≠ 0 := Nat.cast_add_one_ne_zero n
  have e : bs.length + 1 = (bs.length + 1 - as.length) + as.length := by omega
  conv_rhs => rw [e, pow_add]
  rw [div_pow, one_pow]
  have h3 := pow_ne_zero as.length this
  have h4 := pow_ne_zero (bs.length + 1 - as.length) this
  field_simp

theorem tendsto_termRatio_one (as bs : List ℂ) (h : as.length = bs.length + 1) :
    Tendsto (termRatio as bs) atTop (𝓝 1) := by
  refine tendsto_termRatio_aux as bs ?_
  rw [h]
  refine tendsto_const_nhds.congr fun n => ?_
  have : (n : ℂ) + 1 ≠ 0 := Nat.cast_add_one_ne_zero n
  rw [div_self (pow_ne_zero _ this)]

/-- Where the series converges for reasons of degree: `p ≤ q`, or `p = q + 1` and `|z| < 1`. -/
def Converges (as bs : List ℂ) (z : ℂ) : Prop :=
  as.length ≤ bs.length ∨ as.length = bs.length + 1 ∧ ‖z‖ < 1

theorem eventually_ratio {as bs : List ℂ} {z : ℂ} (h : Converges as bs z) :
    ∃ r : ℝ, r < 1 ∧ ∀ᶠ n in atTop, ‖hypTerm as bs z (n + 1)‖ ≤ r * ‖hypTerm as bs z n‖ := by
  obtain ⟨L, hL, hL1⟩ : ∃ L : ℂ, Tendsto (fun n => termRatio as bs n * z) atTop (𝓝 L) ∧ ‖L‖ < 1 := by
    rcases h with h | ⟨h, hz⟩
    · refine ⟨0, ?_, by simp⟩
      simpa using (tendsto_termRatio_zero as bs h).mul_const z
    · refine ⟨z, ?_, hz⟩
      simpa using (tendsto_termRatio_one as bs h).mul_const z
  obtain ⟨r, h1, h2⟩ := exists_between hL1
  refine ⟨r, h2, ?_⟩
  filter_upwards [hL.norm.eventually (gt_mem_nhds h1)] with n hn
  rw [hypTerm_succ', norm_mul]
  exact mul_le_mul_of_nonneg_right hn.le (norm_nonneg _)

theorem summable_hypTerm {as bs : List ℂ} {z : ℂ} (h : Converges as bs z) :
    Summable (hypTerm as bs z) := by
  obtain ⟨r, h1, h2⟩ := eventually_ratio h
  exact summable_of_ratio_norm_eventually_le h1 h2

/-- **C60.** For `p ≤ q` (any `z`) and for `p = q + 1`, `|z| < 1`, the series converges, and with
enough terms allowed `hypsum` does return a value, the same for every larger limit — unless a
lower parameter is a non-positive integer. -/
theorem C60_hypsum_returns {eps : ℝ} (he : 0 < eps) {as bs : List ℂ} {z : ℂ}
    (h : Converges as bs z) (hb : ∀ b ∈ bs, ∀ k : ℕ, b ≠ -(k : ℂ)) :
    Summable (hypTerm as bs z) ∧
      ∃ M s, ∀ maxterms, M ≤ maxterms → hypsum eps as bs z maxterms = some s := by
  classical
  refine ⟨summable_hypTerm h, ?_⟩
  have h0 : ∃ N, 1 ≤ N ∧ ‖hypTerm as bs z N‖ < eps := by
    have h1 := (summable_hypTerm h).tendsto_atTop_zero.norm
    rw [norm_zero] at h1
    obtain ⟨N, hN⟩ := ((h1.eventually (gt_mem_nhds he)).and (eventually_ge_atTop 1)).exists
    exact ⟨N, hN.2, hN.1⟩
  refine ⟨Nat.find h0, ∑ n ∈ Finset.range (Nat.find h0 + 1), hypTerm as bs z n, fun m hm => ?_⟩
  rw [C60_hypsum_spec]
  refine ⟨_, hm, ⟨(Nat.find_spec h0).1, fun n hn1 hn2 => ?_, (Nat.find_spec h0).2,
    fun b hb' k _ => hb b hb' k⟩, rfl⟩
  have := Nat.find_min h0 hn2
  push Not at this
  exact this hn1

/-- **C60.** If after the cut the terms go on decreasing at least by a factor `ρ`, the value
returned differs from the sum of the series by at most `eps ρ/(1-ρ)`. -/
theorem C60_hypsum_error {eps : ℝ} {as bs : List ℂ} {z s : ℂ} {maxterms : ℕ}
    (h : hypsum eps as bs z maxterms = some s) :
    ∃ N, CutAt eps as bs z N ∧ ∀ ρ : ℝ, 0 ≤ ρ → ρ < 1 →
      (∀ n, N ≤ n → ‖hypTerm as bs z (n + 1)‖ ≤ ρ * ‖hypTerm as bs z n‖) →
      Summable (hypTerm as bs z) ∧ ‖(∑' n, hypTerm as bs z n) - s‖ ≤ eps * ρ / (1 - ρ) := by
  rw [C60_hypsum_spec] at h
  obtain ⟨N, -, hN, rfl⟩ := h
  refine ⟨N, hN, fun ρ h0 h1 hr => ?_⟩
  have hs : Summable (hypTerm as bs z) :=
    summable_of_ratio_norm_eventually_le h1 (eventually_atTop.2 ⟨N, hr⟩)
  refine ⟨hs, ?_⟩
  have hpow : ∀ n, ‖hypTerm as bs z (N + n)‖ ≤ ρ ^ n * eps := by
    intro n
    induction n with
    | zero => simpa using hN.2.2.1.le
    | succ n ih =>
      refine (hr (N + n) (by omega)).trans ?_
      rw [pow_succ', mul_assoc]
      exact mul_le_mul_of_nonneg_left ih h0
  rw [← hs.sum_add_tsum_nat_add (N + 1), add_sub_cancel_left]
  have hg : HasSum (fun n : ℕ => ρ ^ (n + 1) * eps) (eps * ρ / (1 - ρ)) := by
    have := (hasSum_geometric_of_lt_one h0 h1).mul_left (eps * ρ)
    rw [← div_eq_mul_inv] at this
    refine this.congr_fun ?_ |> fun h => h
    intro n; ring
  refine tsum_of_norm_bounded hg fun n => ?_
  have := hpow (n + 1)
  rwa [show N + (n + 1) = n + (N + 1) by omega] at this

/-- **C60.** The stopping rule looks at one term only: for every `eps` there are a function `1F1`
and an argument where `hypsum` returns after one term while the sum of the (convergent) series is
larger by any given amount. -/
theorem C60_hypsum_unsound {eps : ℝ} (he : 0 < eps) (M : ℝ) :
    ∃ a b z s : ℂ, Summable (hypTerm [a] [b] z) ∧
      (∀ maxterms, 1 ≤ maxterms → hypsum eps [a] [b] z maxterms = some s) ∧
      M ≤ ‖(∑' n, hypTerm [a] [b] z n) - s‖ := by
  set Z : ℝ := 8 * |M| / eps + 1 with hZ
  have hZ1 : 1 ≤ Z := by have := div_nonneg (mul_nonneg (by norm_num : (0:ℝ) ≤ 8) (abs_nonneg M)) he.le; linarith
  have hZ0 : 0 < Z := by linarith
  set α : ℝ := eps / (2 * Z) with hα
  have hα0 : 0 < α := by positivity
  have hαZ : α * Z = eps / 2 := by rw [hα]; field_simp
  have hsum : Summable (hypTerm [(α : ℂ)] [1] (Z : ℂ)) := summable_hypTerm (Or.inl (by simp))
  have hpos : ∀ n, 0 ≤ (hypTerm [(α : ℂ)] [1] (Z : ℂ) n).re := by
    intro n
    have e : hypTerm [(α : ℂ)] [1] (Z : ℂ) n =
        (((∏ k ∈ Finset.range n, (α + k)) / (∏ k ∈ Finset.range n, ((1 : ℝ) + k)) * Z ^ n /
          n.factorial : ℝ) : ℂ) := by
      simp [hypTerm, rising]
    rw [e, ofReal_re]; positivity
  have e1 : hypTerm [(α : ℂ)] [1] (Z : ℂ) 1 = ((eps / 2 : ℝ) : ℂ) := by
    rw [← hαZ]; simp [hypTerm, rising]
  have e2 : hypTerm [(α : ℂ)] [1] (Z : ℂ) 2 = ((α * (α + 1) / 4 * Z ^ 2 : ℝ) : ℂ) := by
    simp [hypTerm, rising, Finset.prod_range_succ]; ring
  refine ⟨α, 1, Z, 1 + (eps / 2 : ℝ), hsum, fun m hm => ?_, ?_⟩
  · rw [C60_hypsum_spec]
    refine ⟨1, hm, ⟨le_rfl, fun n h1 h2 => by omega, ?_, ?_⟩, ?_⟩
    · rw [e1, norm_real, Real.norm_eq_abs, abs_of_pos (by linarith)]; linarith
    · intro b hb k hk
      rw [List.mem_singleton.1 hb, show k = 0 by omega]; simp
    · rw [Finset.sum_range_succ, Finset.sum_range_one, hypTerm_zero, e1]
  · have h3 : (∑ n ∈ Finset.range 3, (hypTerm [(α : ℂ)] [1] (Z : ℂ) n).re) ≤
        (∑' n, hypTerm [(α : ℂ)] [1] (Z : ℂ) n).re := by
      rw [Complex.re_tsum hsum]
      exact (Complex.hasSum_re hsum.hasSum).summable.sum_le_tsum _ fun n _ => hpos n
    rw [Finset.sum_range_succ, Finset.sum_range_succ, Finset.sum_range_one, hypTerm_zero, e1, e2,
      ofReal_re, ofReal_re, one_re] at h3
    refine le_trans ?_ ((le_abs_self _).trans (abs_re_le_norm _))
    rw [sub_re, add_re, one_re, ofReal_re]
    have h4 : |M| ≤ α * (α + 1) / 4 * Z ^ 2 := by
      have h5 : α * (α + 1) / 4 * Z ^ 2 = (eps / 2) * Z / 4 + (α * Z) ^ 2 / 4 := by rw [← hαZ]; ring
      have h6 : eps * Z = 8 * |M| + eps := by rw [hZ]; field_simp
      nlinarith [sq_nonneg (α * Z)]
    have := le_abs_self M
    linarith

/-- Non-trivial cases: the exponential series `0F0`, `1F1` and the geometric series satisfy the
hypotheses of `C60_hypsum_returns`; the terms of `exp` satisfy the ratio hypothesis of
`C60_hypsum_error` from any `N` with `‖z‖ ≤ (N + 1)/2`, with `ρ = 1/2`. -/
example : Converges [] [] 7 ∧ Converges [1 / 2] [3 / 2] (-5) ∧ Converges [1] [] (1 / 2) ∧
    (∀ n, 9 ≤ n → ‖hypTerm [] [] 5 (n + 1)‖ ≤ 1 / 2 * ‖hypTerm [] [] 5 n‖) := by
  refine ⟨Or.inl (by simp), Or.inl (by simp), Or.inr ⟨by simp, by norm_num⟩, fun n hn => ?_⟩
  rw [hypTerm_succ', norm_mul]
  refine mul_le_mul_of_nonneg_right ?_ (norm_nonneg _)
  have h1 : ‖(n : ℂ) + 1‖ = n + 1 := by
    rw [show (n : ℂ) + 1 = ((n + 1 : ℕ) : ℂ) by push_cast; ring, norm_natCast]; push_cast; ring
  have h2 : (9 : ℝ) ≤ n := by exact_mod_cast hn
  simp [termRatio, h1]
  rw [inv_mul_le_iff₀ (by linarith)]; linarith

end Verif.Special
