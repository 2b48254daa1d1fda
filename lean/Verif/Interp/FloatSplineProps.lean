import Verif.Interp.FloatSplineModel
import Verif.Interp.SplineW

/-! # C158: splines in floating point -/

namespace Verif.Interp

open Verif.Round

variable {p : ℕ} {fl : ℝ → ℝ}

/-- Horner's scheme from an accumulator. -/
def hf (x : ℝ) (acc : ℝ) (cs : List ℝ) : ℝ := cs.foldl (fun acc c => acc * x + c) acc

theorem hf_cons (x acc c : ℝ) (cs : List ℝ) : hf x acc (c :: cs) = hf x (acc * x + c) cs := rfl

theorem polyval_hf (cs : List ℝ) (x : ℝ) : polyval cs x = hf x 0 cs := rfl

/-- Result of the rounded loop: the exact loop for perturbed coefficients and accumulator. -/
theorem horner_near (h : Nearest p fl) (hp : 1 ≤ p) (x : ℝ) (cs : List ℝ) (acc r : ℝ) (hr : FlHorner fl x acc cs r) :
    ∃ t cs', NearOne p (2 * cs.length) t ∧ NearList p (2 * cs.length) cs' cs ∧ r = hf x (acc * t) cs' := by
  induction cs generalizing acc with
  | nil => exact ⟨1, [], NearOne.one, .nil, by rw [show r = acc from hr]; simp [hf]⟩
  | cons c cs ih =>
    obtain ⟨a, ha, hr⟩ := hr
    obtain ⟨t, cs', ht, hcs, rfl⟩ := ih a hr
    obtain ⟨s, u, hs, hu, rfl⟩ : ∃ s u, NearOne p 1 s ∧ NearOne p 1 u ∧ a = (acc * x * s + c) * u := by
      rcases ha with rfl | rfl
      · obtain ⟨s, hs, e⟩ := near_fl h hp (acc * x)
        obtain ⟨u, hu, e'⟩ := near_fl h hp (fl (acc * x) + c)
        exact ⟨s, u, hs, hu, by rw [e', e]⟩
      · obtain ⟨u, hu, e'⟩ := near_fl h hp (acc * x + c)
        exact ⟨1, u, NearOne.one.mono hp (by norm_num), hu, by rw [e', mul_one]⟩
    refine ⟨s * u * t, c * (u * t) :: cs', ?_, .cons ⟨u * t, ?_, rfl⟩ ?_, ?_⟩
    · exact ((hs.mul hp hu).mul hp ht).mono hp (by simp only [List.length_cons]; omega)
    · exact (hu.mul hp ht).mono hp (by simp only [List.length_cons]; omega)
    · exact hcs.imp fun _ _ ⟨t, h, e⟩ => ⟨t, h.mono hp (by simp only [List.length_cons]; omega), e⟩
    · rw [hf_cons]; congr 1; ring

theorem NearList.trans (hp : 1 ≤ p) {K L : ℕ} {a b c : List ℝ} (h : NearList p K a b) (h' : NearList p L b c) :
    NearList p (K + L) a c := by
  induction h generalizing c with
  | nil => cases h'; exact .nil
  | cons hab _ ih =>
    cases h' with
    | cons hbc h' =>
      obtain ⟨t, ht, rfl⟩ := hab
      obtain ⟨s, hs, rfl⟩ := hbc
      exact .cons ⟨s * t, (hs.mul hp ht).mono hp (by omega), by ring⟩ (ih h')

theorem NearList.block (degree : ℕ) {K : ℕ} {a b : List ℝ} (h : NearList p K a b) (i : ℕ) :
    NearList p K (block degree a i) (block degree b i) :=
  List.forall₂_take _ (List.forall₂_drop _ h)

/-- Loop with coefficients perturbed relatively by at most `K`. -/
theorem hf_error {K : ℝ} (hK : 0 ≤ K) (x : ℝ) {cs' cs : List ℝ} (h : List.Forall₂ (fun a b => |a - b| ≤ K * |b|) cs' cs)
    (a' a A : ℝ) (ha : |a' - a| ≤ K * A) :
    |hf x a' cs' - hf x a cs| ≤ K * hf |x| A (cs.map fun c => |c|) := by
  induction h generalizing a' a A with
  | nil => exact ha
  | cons hc _ ih =>
    rw [hf_cons, hf_cons, List.map_cons, hf_cons]
    refine ih _ _ _ ?_
    rename_i c' c _ _ _
    calc |a' * x + c' - (a * x + c)| = |(a' - a) * x + (c' - c)| := by congr 1; ring
      _ ≤ |a' - a| * |x| + |c' - c| := (abs_add_le _ _).trans (by rw [abs_mul])
      _ ≤ K * A * |x| + K * |c| := add_le_add (mul_le_mul_of_nonneg_right ha (abs_nonneg x)) hc
      _ = _ := by ring

theorem NearList.error (hp : 1 ≤ p) {K : ℕ} {a b : List ℝ} (h : NearList p K a b) (x : ℝ) :
    |polyval a x - polyval b x| ≤ (((1 - ((2 : ℝ) ^ p)⁻¹) ^ K)⁻¹ - 1) * polyval (b.map fun c => |c|) |x| := by
  have h0 : 0 ≤ ((1 - ((2 : ℝ) ^ p)⁻¹) ^ K)⁻¹ - 1 :=
    (abs_nonneg _).trans ((NearOne.one.mono hp (Nat.zero_le K)).abs_sub_one hp)
  refine hf_error h0 x (h.imp ?_) 0 0 0 (by simp)
  rintro a b ⟨t, ht, rfl⟩
  rw [show b * t - b = (t - 1) * b by ring, abs_mul]
  exact mul_le_mul_of_nonneg_right (ht.abs_sub_one hp) (abs_nonneg _)

/-! ### C158 -/

/-- What `evaluate` returns is the exact value of a spline whose coefficients differ from those it was given by at most two
roundings per coefficient of a polynomial. -/
theorem C158_backward (h : Nearest p fl) (hp : 1 ≤ p) (x0 : List ℝ) (degree : ℕ) (c : List ℝ) (x r : ℝ)
    (hr : FlEvaluate fl x0 degree c x r) :
    ∃ b, NearList p (2 * (degree + 1)) b (block degree c (pickPoly x0 x)) ∧ r = polyval b x := by
  obtain ⟨t, cs', -, hcs, rfl⟩ := horner_near h hp x _ _ _ hr
  refine ⟨cs', hcs.imp fun _ _ ⟨t, h, e⟩ => ⟨t, h.mono hp ?_, e⟩, by rw [polyval_hf, zero_mul]⟩
  simp only [block, List.length_take, nvarsp]
  omega

/-- The error of `evaluate` for coefficients with up to `K` roundings. -/
theorem C158_error (h : Nearest p fl) (hp : 1 ≤ p) (x0 : List ℝ) (degree K : ℕ) (c' c : List ℝ) (hc : NearList p K c' c)
    (x r : ℝ) (hr : FlEvaluate fl x0 degree c' x r) :
    |r - evaluate x0 degree c x| ≤ (((1 - ((2 : ℝ) ^ p)⁻¹) ^ (2 * (degree + 1) + K))⁻¹ - 1) * magnitude x0 degree c x := by
  obtain ⟨b, hb, rfl⟩ := C158_backward h hp x0 degree c' x r hr
  exact (hb.trans hp (hc.block degree _)).error hp x

/-- At the knots of a cubic spline the data are reproduced up to that error. -/
theorem C158_knots_partial (h : Nearest p fl) (hp : 1 ≤ p) (x0 y0 : List ℝ) (h2 : 2 ≤ x0.length) (hs : x0.Pairwise (· < ·))
    (hy : y0.length = x0.length) (c : List ℝ) (hsol : Solves x0 3 y0 c) (K : ℕ) (c' : List ℝ) (hc : NearList p K c' c)
    (i : ℕ) (hi : i < x0.length) (r : ℝ) (hr : FlEvaluate fl x0 3 c' (at' x0 i) r) :
    |r - at' y0 i| ≤ (((1 - ((2 : ℝ) ^ p)⁻¹) ^ (8 + K))⁻¹ - 1) * magnitude x0 3 c (at' x0 i) := by
  have := C158_error h hp x0 3 K c' c hc _ r hr
  rwa [(C56_spline x0 y0 c h2 hs hy hsol).1 i hi] at this

/-- Correctly rounded coefficients have one rounding. -/
theorem nearList_map (h : Nearest p fl) (hp : 1 ≤ p) (c : List ℝ) : NearList p 1 (c.map fl) c := by
  induction c with
  | nil => exact .nil
  | cons a c ih => exact .cons (near_fl h hp a) ih

theorem hf_nonneg (x : ℝ) (A : ℝ) (hA : 0 ≤ A) (cs : List ℝ) : 0 ≤ hf |x| A (cs.map fun c => |c|) := by
  induction cs generalizing A with
  | nil => exact hA
  | cons c cs ih => exact ih _ (by positivity)

theorem hf_ge (x : ℝ) (hx : 1 ≤ |x|) (A : ℝ) (hA : 0 ≤ A) (cs : List ℝ) : A ≤ hf |x| A (cs.map fun c => |c|) := by
  induction cs generalizing A with
  | nil => exact le_rfl
  | cons c cs ih =>
    rw [List.map_cons, hf_cons]
    refine le_trans ?_ (ih _ (by positivity))
    nlinarith [abs_nonneg c]

theorem horner_exact (h : Nearest p fl) (hp : 1 ≤ p) (e : ℤ) (x : ℤ) (hx : 1 ≤ |x|) (ms : List ℤ) (m : ℤ) (r : ℝ)
    (hM : hf |(x : ℝ)| |(m : ℝ) * 2 ^ e| ((ms.map fun m : ℤ => (m : ℝ) * 2 ^ e).map fun c => |c|) ≤ 2 ^ p * 2 ^ e)
    (hr : FlHorner fl x ((m : ℝ) * 2 ^ e) (ms.map fun m : ℤ => (m : ℝ) * 2 ^ e) r) :
    r = hf x ((m : ℝ) * 2 ^ e) (ms.map fun m : ℤ => (m : ℝ) * 2 ^ e) := by
  have he : (0 : ℝ) < 2 ^ e := zpow_pos (by norm_num) _
  have hx' : (1 : ℝ) ≤ |(x : ℝ)| := by exact_mod_cast hx
  have small : ∀ n : ℤ, |(n : ℝ) * 2 ^ e| ≤ 2 ^ p * 2 ^ e → |n| ≤ 2 ^ p := fun n hn => by
    rw [abs_mul, abs_of_pos he] at hn
    exact_mod_cast le_of_mul_le_mul_right hn he
  induction ms generalizing m with
  | nil => exact hr
  | cons c cs ih =>
    obtain ⟨a, ha, hr⟩ := hr
    rw [List.map_cons, List.map_cons, hf_cons] at hM
    have hsum : |(m : ℝ) * 2 ^ e| * |(x : ℝ)| + |(c : ℝ) * 2 ^ e| ≤ 2 ^ p * 2 ^ e :=
      (hf_ge x hx' _ (by positivity) _).trans hM
    have e1 : (m : ℝ) * 2 ^ e * x = ((m * x : ℤ) : ℝ) * 2 ^ e := by push_cast; ring
    have e2 : ((m * x : ℤ) : ℝ) * 2 ^ e + (c : ℝ) * 2 ^ e = ((m * x + c : ℤ) : ℝ) * 2 ^ e := by push_cast; ring
    have b1 : |((m * x : ℤ) : ℝ) * 2 ^ e| = |(m : ℝ) * 2 ^ e| * |(x : ℝ)| := by rw [← e1, abs_mul]
    have b2 : |((m * x + c : ℤ) : ℝ) * 2 ^ e| ≤ |(m : ℝ) * 2 ^ e| * |(x : ℝ)| + |(c : ℝ) * 2 ^ e| := by
      rw [← e2, ← b1]; exact abs_add_le _ _
    have f1 : fl ((m : ℝ) * 2 ^ e * x) = ((m * x : ℤ) : ℝ) * 2 ^ e := by
      rw [e1]
      exact h.self (isFl_int hp (small _ (by rw [b1]; linarith [abs_nonneg ((c : ℝ) * 2 ^ e)])) e)
    have f2 : fl (((m * x : ℤ) : ℝ) * 2 ^ e + (c : ℝ) * 2 ^ e) = ((m * x + c : ℤ) : ℝ) * 2 ^ e := by
      rw [e2]
      exact h.self (isFl_int hp (small _ (b2.trans hsum)) e)
    have ha' : a = ((m * x + c : ℤ) : ℝ) * 2 ^ e := by
      rcases ha with rfl | rfl
      · rw [f1, f2]
      · rw [e1, f2]
    subst ha'
    rw [ih _ ?_ hr, List.map_cons, hf_cons, e1, e2]
    refine le_trans ?_ hM
    have mono : ∀ (cs : List ℝ) (A B : ℝ), A ≤ B → hf |(x : ℝ)| A cs ≤ hf |(x : ℝ)| B cs := by
      intro cs
      induction cs with
      | nil => exact fun A B h => h
      | cons c cs ih => exact fun A B h => ih _ _ (add_le_add (mul_le_mul_of_nonneg_right h (abs_nonneg _)) le_rfl)
    exact mono _ _ _ b2

theorem horner_zero (h : Nearest p fl) (hp : 1 ≤ p) (e : ℤ) (ms : List ℤ) (acc b r : ℝ) (hne : ms ≠ [])
    (hM : hf |0| |b| ((ms.map fun m : ℤ => (m : ℝ) * 2 ^ e).map fun c => |c|) ≤ 2 ^ p * 2 ^ e)
    (hr : FlHorner fl 0 acc (ms.map fun m : ℤ => (m : ℝ) * 2 ^ e) r) :
    r = hf 0 b (ms.map fun m : ℤ => (m : ℝ) * 2 ^ e) := by
  have he : (0 : ℝ) < 2 ^ e := zpow_pos (by norm_num) _
  induction ms generalizing acc b with
  | nil => exact absurd rfl hne
  | cons c cs ih =>
    obtain ⟨a, ha, hr⟩ := hr
    have h0 : fl 0 = 0 := h.self isFl_zero
    have ha' : a = fl ((c : ℝ) * 2 ^ e) := by rcases ha with rfl | rfl <;> simp [h0]
    rw [List.map_cons, List.map_cons, hf_cons, abs_zero, mul_zero, zero_add] at hM
    rw [List.map_cons, hf_cons, mul_zero, zero_add]
    by_cases hcs : cs = []
    · subst hcs
      rw [show r = a from hr, ha']
      refine h.self (isFl_int hp ?_ e)
      have hM : |(c : ℝ) * 2 ^ e| ≤ 2 ^ p * 2 ^ e := hM
      rw [abs_mul, abs_of_pos he] at hM
      exact_mod_cast le_of_mul_le_mul_right hM he
    · exact ih _ _ hcs (by simpa using hM) hr

/-- `evaluate` is exact at integers if the coefficients are multiples of a power of two and the magnitude leaves room for them
(degree arbitrary). -/
theorem C158_exact (h : Nearest p fl) (hp : 1 ≤ p) (x0 : List ℝ) (degree : ℕ) (c : List ℝ) (e : ℤ)
    (hc : ∀ a ∈ c, ∃ m : ℤ, a = m * (2 : ℝ) ^ e) (x : ℤ)
    (hM : magnitude x0 degree c x ≤ 2 ^ p * 2 ^ e) (r : ℝ) (hr : FlEvaluate fl x0 degree c x r) :
    r = evaluate x0 degree c x := by
  obtain ⟨ms, hms⟩ : ∃ ms : List ℤ, block degree c (pickPoly x0 x) = ms.map fun m : ℤ => (m : ℝ) * 2 ^ e := by
    have hb : ∀ a ∈ block degree c (pickPoly x0 x), ∃ m : ℤ, a = m * (2 : ℝ) ^ e := fun a ha =>
      hc a (List.mem_of_mem_drop (List.mem_of_mem_take ha))
    generalize block degree c (pickPoly x0 x) = l at hb
    induction l with
    | nil => exact ⟨[], rfl⟩
    | cons a l ih =>
      obtain ⟨m, rfl⟩ := hb a (by simp)
      obtain ⟨ms, rfl⟩ := ih fun b hb' => hb b (by simp [hb'])
      exact ⟨m :: ms, rfl⟩
  unfold FlEvaluate at hr
  unfold evaluate
  unfold magnitude at hM
  rw [hms] at hr hM ⊢
  rcases eq_or_ne x 0 with rfl | hx
  · rcases eq_or_ne ms [] with rfl | hne
    · exact hr
    · rw [Int.cast_zero] at hr hM ⊢
      exact horner_zero h hp e ms 0 0 r hne (by simpa [polyval_hf] using hM) hr
  have := horner_exact h hp e x (Int.one_le_abs hx) ms 0 r (by simpa [polyval_hf] using hM) (by simpa using hr)
  rw [this, polyval_hf]
  simp

/-! ### A spline that misses its data by orders of magnitude -/

/-- Coefficients of the spline through `(X, 0)`, `(X + 1, 1)`, `(X + 2, 0)`. -/
noncomputable def exC (X : ℝ) : List ℝ :=
  [-1 / 2, 3 / 2 * X, 3 / 2 - 3 / 2 * X ^ 2, X ^ 3 / 2 - 3 / 2 * X,
    1 / 2, -3 / 2 * (X + 2), 3 / 2 * (X + 2) ^ 2 - 3 / 2, 3 / 2 * (X + 2) - (X + 2) ^ 3 / 2]

theorem exC_solves (X : ℝ) : Solves [X, X + 1, X + 2] 3 [0, 1, 0] (exC X) := by
  rw [solves_iff _ _ _ (by simp) (by simp)]
  refine ⟨by simp [exC, nvars, nvarsp, npolys], ⟨fun i hi => ?_, fun i hi => ?_, fun i hi => ?_, fun i hi => ?_, ?_, ?_⟩⟩
  · simp only [List.length_cons, List.length_nil] at hi
    have : i = 0 ∨ i = 1 := by omega
    rcases this with rfl | rfl <;> simp [cubicAt, at', exC, Cubic.val] <;> ring
  · simp only [List.length_cons, List.length_nil] at hi
    have : i = 0 ∨ i = 1 := by omega
    rcases this with rfl | rfl <;> simp [cubicAt, at', exC, Cubic.val] <;> ring
  · simp only [List.length_cons, List.length_nil] at hi
    have : i = 0 := by omega
    subst this
    simp [cubicAt, at', exC, Cubic.d1]; ring
  · simp only [List.length_cons, List.length_nil] at hi
    have : i = 0 := by omega
    subst this
    simp [cubicAt, at', exC, Cubic.d2]; ring
  · simp [cubicAt, at', exC, Cubic.d2]; ring
  · simp [cubicAt, at', exC, Cubic.d2]; ring

theorem ex_sorted (X : ℝ) : [X, X + 1, X + 2].Pairwise (· < ·) := by simp

theorem exC_unique (X : ℝ) (c : List ℝ) (h : Solves [X, X + 1, X + 2] 3 [0, 1, 0] c) : c = exC X :=
  (C56_exists [X, X + 1, X + 2] [0, 1, 0] (by simp) (ex_sorted X) rfl).unique h (exC_solves X)

theorem ex_pick (X : ℝ) : pickPoly [X, X + 1, X + 2] (X + 1) = 0 := by
  obtain ⟨h1, h2, -⟩ := C56_pick [X, X + 1, X + 2] ((ex_sorted X).imp le_of_lt) (by simp) (X + 1)
  simp only [List.length_cons, List.length_nil] at h1
  generalize pickPoly [X, X + 1, X + 2] (X + 1) = i at h1 h2
  have : i = 0 ∨ i = 1 := by omega
  rcases this with rfl | rfl
  · rfl
  · simp [at'] at h2

/-- The arithmetic of the example. -/
theorem ex_horner (h : Nearest 24 fl) (r : ℝ) (hr : FlHorner fl 8501 0 (block 3 ((exC 8500).map fl) 0) r) :
    r = -32768 ∨ r = -40048 := by
  have i : ∀ (m : ℤ) (e : ℤ), |m| ≤ 2 ^ 24 → fl (m * (2 : ℝ) ^ e) = m * (2 : ℝ) ^ e := fun m e hm =>
    h.self (isFl_int (by norm_num) hm e)
  have c0 : fl (-(1 / 2)) = -(1 / 2) := by have := i (-1) (-1) (by norm_num); norm_num at this ⊢; exact this
  have c1 : fl 12750 = 12750 := by have := i 12750 0 (by norm_num); norm_num at this ⊢; exact this
  have c2 : fl (-(216749997 / 2)) = -108375000 := by
    have := h.eq_of_half_abs (x := -(216749997 / 2)) (-13546875) 3 (by norm_num) (by norm_num) (by norm_num [abs_lt])
    norm_num at this ⊢; exact this
  have c3 : fl 307062487250 = 307062472704 := by
    have := h.eq_of_half_abs (x := 307062487250) 9370803 15 (by norm_num) (by norm_num) (by norm_num [abs_lt])
    norm_num at this ⊢; exact this
  have hb : block 3 ((exC 8500).map fl) 0 = [-(1 / 2), 12750, -108375000, 307062472704] := by
    simp only [block, exC, nvarsp, List.map_cons, zero_mul, List.drop_zero, List.take_succ_cons, List.take_zero]
    norm_num [c0, c1, c2, c3]
  rw [hb] at hr
  obtain ⟨a1, h1, a2, h2, a3, h3, a4, h4, rfl⟩ := hr
  have z : fl 0 = 0 := h.self isFl_zero
  have v1 : a1 = -(1 / 2) := by
    rcases h1 with rfl | rfl <;> simp only [zero_mul, z, zero_add, c0]
  subst v1
  have v2 : a2 = 16999 / 2 := by
    have f1 : fl (-(8501 / 2)) = -(8501 / 2) := by have := i (-8501) (-1) (by norm_num); norm_num at this ⊢; exact this
    have f2 : fl (16999 / 2) = 16999 / 2 := by have := i 16999 (-1) (by norm_num); norm_num at this ⊢; exact this
    rcases h2 with rfl | rfl <;> norm_num [f1, f2]
  subst v2
  have v3 : a3 = -36120752 := by
    have f1 : fl (144508499 / 2) = 72254248 := by
      have := h.eq_of_half_abs (x := 144508499 / 2) 9031781 3 (by norm_num) (by norm_num) (by norm_num [abs_lt])
      norm_num at this ⊢; exact this
    have f2 : fl (-36120752) = -36120752 := by have := i (-9030188) 2 (by norm_num); norm_num at this ⊢; exact this
    have f3 : fl (-(72241501 / 2)) = -36120752 := by
      have := h.eq_of_half_abs (x := -(72241501 / 2)) (-9030188) 2 (by norm_num) (by norm_num) (by norm_num [abs_lt])
      norm_num at this ⊢; exact this
    rcases h3 with rfl | rfl <;> norm_num [f1, f2, f3]
  subst v3
  have f1 : fl (-307062512752) = -307062505472 := by
    have := h.eq_of_half_abs (x := -307062512752) (-9370804) 15 (by norm_num) (by norm_num) (by norm_num [abs_lt])
    norm_num at this ⊢; exact this
  have f2 : fl (-32768) = -32768 := by have := i (-32768) 0 (by norm_num); norm_num at this ⊢; exact this
  have f3 : fl (-40048) = -40048 := by have := i (-40048) 0 (by norm_num); norm_num at this ⊢; exact this
  rcases h4 with rfl | rfl
  · left; norm_num [f1, f2]
  · right; norm_num [f3]

/-- Single precision, knots 8500, 8501 and 8502 with data 0, 1 and 0: even from the exact coefficients, correctly rounded,
`evaluate` returns less than -32767 at the knot 8501.  (The exact spline returns 1.) -/
theorem C158_knots_fail (h : Nearest 24 fl) (c : List ℝ) (hc : Solves [8500, 8501, 8502] 3 [0, 1, 0] c) :
    evaluate [8500, 8501, 8502] 3 c 8501 = 1 ∧ (∃ r, FlEvaluate fl [8500, 8501, 8502] 3 (c.map fl) 8501 r) ∧
      ∀ r, FlEvaluate fl [8500, 8501, 8502] 3 (c.map fl) 8501 r → r = -32768 ∨ r = -40048 := by
  have ek : ([8500, 8501, 8502] : List ℝ) = [8500, 8500 + 1, 8500 + 2] := by norm_num
  have e1 : (8501 : ℝ) = 8500 + 1 := by norm_num
  have hpick : pickPoly [8500, 8501, 8502] (8501 : ℝ) = 0 := by rw [ek, e1]; exact ex_pick 8500
  have hval : evaluate [8500, 8501, 8502] 3 c 8501 = 1 := by
    have := (C56_spline [8500, 8501, 8502] [0, 1, 0] c (by simp) (by rw [ek]; exact ex_sorted _) rfl hc).1 1 (by simp)
    simpa [at'] using this
  have hcE : c = exC 8500 := exC_unique 8500 c (by rw [← ek]; exact hc)
  refine ⟨hval, ?_, ?_⟩
  · unfold FlEvaluate
    generalize block 3 _ _ = l
    have : ∀ (l : List ℝ) (acc : ℝ), ∃ r, FlHorner fl 8501 acc l r := by
      intro l
      induction l with
      | nil => exact fun acc => ⟨acc, rfl⟩
      | cons c l ih => exact fun acc => (ih (fl (acc * 8501 + c))).imp fun r hr => ⟨_, .inr rfl, hr⟩
    exact this l 0
  · intro r hr
    unfold FlEvaluate at hr
    rw [hpick, hcE] at hr
    exact ex_horner h r hr

/-- The same data at the knots 0, 1 and 2 are reproduced exactly: moving the knots matters. -/
theorem C158_origin (h : Nearest p fl) (hp : 5 ≤ p) (c : List ℝ) (hc : Solves [0, 1, 2] 3 [0, 1, 0] c) (r : ℝ)
    (hr : FlEvaluate fl [0, 1, 2] 3 (c.map fl) 1 r) : r = 1 := by
  have ek : ([0, 1, 2] : List ℝ) = [0, 0 + 1, 0 + 2] := by norm_num
  have hcE : c = exC 0 := exC_unique 0 c (by rw [← ek]; exact hc)
  have hm : c = [-1, 0, 3, 0, 1, -6, 9, -2].map fun m : ℤ => (m : ℝ) * (2 : ℝ) ^ (-1 : ℤ) := by
    rw [hcE]; simp only [exC, List.map_cons, List.map_nil]; norm_num
  have hp5 : (2 : ℝ) ^ 5 ≤ 2 ^ p := pow_le_pow_right₀ (by norm_num) hp
  have hz : (2 : ℤ) ^ 5 ≤ 2 ^ p := pow_le_pow_right₀ (by norm_num) hp
  have hmap : c.map fl = c := by
    rw [hm, List.map_map]
    refine List.map_congr_left fun m hm => h.self (isFl_int (by omega) ?_ _)
    refine le_trans ?_ hz
    fin_cases hm <;> norm_num
  rw [hmap] at hr
  have hpick : pickPoly [0, 1, 2] (1 : ℝ) = 0 := by have := ex_pick 0; norm_num at this; exact this
  have := C158_exact h (by omega) [0, 1, 2] 3 c (-1) (fun a ha => by
    rw [hm] at ha; obtain ⟨m, -, rfl⟩ := List.mem_map.mp ha; exact ⟨m, rfl⟩) 1 (by
      simp only [magnitude, Int.cast_one, hpick, hm]
      norm_num [block, nvarsp, polyval]
      norm_num at hp5
      linarith) r (by simpa using hr)
  rw [this]
  have := (C56_spline [0, 1, 2] [0, 1, 0] c (by simp) (by rw [ek]; exact ex_sorted _) rfl hc).1 1 (by simp)
  simpa [at'] using this

/-! ### Weights -/

/-- Each weight is that of a column changed by at most `2 (degree + 1)` roundings: the error of a weight is bounded by the
magnitudes in its column. -/
theorem C158_weights (h : Nearest p fl) (hp : 1 ≤ p) (x0 : List ℝ) (degree K : ℕ) (A' A : List (List ℝ))
    (hA : List.Forall₂ (fun c' c => NearList p K c' c) A' A) (x : ℝ) (w : List ℝ) (hw : FlWeights fl x0 degree A' x w) :
    List.Forall₂ (fun r c => |r - evaluate x0 degree c x| ≤
      (((1 - ((2 : ℝ) ^ p)⁻¹) ^ (2 * (degree + 1) + K))⁻¹ - 1) * magnitude x0 degree c x) w A := by
  unfold FlWeights at hw
  induction hA generalizing w with
  | nil => cases hw; exact .nil
  | cons hc _ ih =>
    cases hw with
    | cons h1 h2 => exact .cons (C158_error h hp x0 degree K _ _ hc x _ h1) (ih _ h2)

theorem sum_snd_nonneg {w : ℝ} (l : List (ℝ × ℝ)) (hl : ∀ ab ∈ l, ab.2 = 0 ∨ (ab.1 = w ∧ ab.2 = 1)) :
    0 ≤ (l.map Prod.snd).sum := by
  refine List.sum_nonneg fun b hb => ?_
  obtain ⟨ab, hab, rfl⟩ := List.mem_map.mp hb
  rcases hl ab hab with h | h <;> simp [h]

theorem flDot_unit (h : Nearest p fl) {w : ℝ} (hw : fl w = w) (l : List (ℝ × ℝ)) (r : ℝ) (hr : FlDot fl l r)
    (hl : ∀ ab ∈ l, ab.2 = 0 ∨ (ab.1 = w ∧ ab.2 = 1)) (hs : (l.map Prod.snd).sum ≤ 1) :
    r = w * (l.map Prod.snd).sum ∧ ((l.map Prod.snd).sum = 0 ∨ (l.map Prod.snd).sum = 1) := by
  have z : fl 0 = 0 := h.self isFl_zero
  induction hr with
  | zero => simp
  | one a b =>
    rcases hl (a, b) (by simp) with h' | h' <;> simp only at h'
    · simp [h', z]
    · simp [h', hw]
  | @add l l' r r' _ _ ih ih' =>
    have hl1 := fun ab hab => hl ab (List.mem_append_left _ hab)
    have hl2 := fun ab hab => hl ab (List.mem_append_right _ hab)
    have n1 := sum_snd_nonneg l hl1
    have n2 := sum_snd_nonneg l' hl2
    simp only [List.map_append, List.sum_append] at hs ⊢
    obtain ⟨e1, f1⟩ := ih hl1 (by linarith)
    obtain ⟨e2, f2⟩ := ih' hl2 (by linarith)
    rcases f1 with f1 | f1 <;> rcases f2 with f2 | f2 <;> rw [f1, f2] at hs ⊢ <;> rw [f1] at e1 <;> rw [f2] at e2 <;>
      simp only [e1, e2, mul_zero, mul_one, add_zero, zero_add, z, hw, true_and, or_true, true_or]
    norm_num at hs
  | @fma l r a b _ ih =>
    have hl1 := fun ab hab => hl ab (List.mem_cons_of_mem _ hab)
    have n1 := sum_snd_nonneg l hl1
    simp only [List.map_cons, List.sum_cons] at hs ⊢
    rcases hl (a, b) (by simp) with h' | h' <;> simp only at h'
    · rw [h', zero_add] at hs ⊢
      obtain ⟨e1, f1⟩ := ih hl1 hs
      refine ⟨?_, f1⟩
      rcases f1 with f1 | f1 <;> rw [f1] at e1 ⊢ <;> simp [e1, z, hw]
    · obtain ⟨rfl, rfl⟩ := h'
      obtain ⟨e1, f1⟩ := ih hl1 (by linarith)
      rcases f1 with f1 | f1 <;> rw [f1] at hs e1 ⊢
      · simp [e1, hw]
      · norm_num at hs
  | perm hp _ ih =>
    have e := (hp.map Prod.snd).sum_eq
    rw [← e] at hs ⊢
    exact ih (fun ab hab => hl ab (hp.mem_iff.mp hab)) hs

/-- The same knots, the query at the middle one: even if the operator `A` is exact and correctly rounded, `weights` gives the
middle datum a weight less than -32767 (the exact weight is 1), and `SplineNd.evaluate` passes it on. -/
theorem C158_weights_fail (h : Nearest 24 fl) (inv : List (List ℝ)) (hinv : IsInverse [8500, 8501, 8502] 3 inv) :
    weights [8500, 8501, 8502] 3 inv 8501 = [0, 1, 0] ∧
      (∀ w, FlWeights fl [8500, 8501, 8502] 3 ((Acols [8500, 8501, 8502] inv).map (·.map fl)) 8501 w →
        w.length = 3 ∧ (at' w 1 = -32768 ∨ at' w 1 = -40048)) ∧
      (∃ r, FlNd1 fl [8500, 8501, 8502] 3 ((Acols [8500, 8501, 8502] inv).map (·.map fl)) 8501 [0, 1, 0] r) ∧
      ∀ r, FlNd1 fl [8500, 8501, 8502] 3 ((Acols [8500, 8501, 8502] inv).map (·.map fl)) 8501 [0, 1, 0] r →
        r = -32768 ∨ r = -40048 := by
  have ek : ([8500, 8501, 8502] : List ℝ) = [8500, 8500 + 1, 8500 + 2] := by norm_num
  have e1 : (8501 : ℝ) = 8500 + 1 := by norm_num
  have hs : ([8500, 8501, 8502] : List ℝ).Pairwise (· < ·) := by rw [ek]; exact ex_sorted _
  have hpick : pickPoly [8500, 8501, 8502] (8501 : ℝ) = 0 := by rw [ek, e1]; exact ex_pick 8500
  have hcol : (Acols [8500, 8501, 8502] inv)[1]? = some (exC 8500) := by
    refine C76_columns _ _ (by simp) hs inv hinv 1 (by simp) ?_
    have : ((List.range [8500, 8501, (8502 : ℝ)].length).map fun i => if 1 = i then (1 : ℝ) else 0) = [0, 1, 0] := by
      simp [List.range_succ]
    rw [this, ek]
    exact exC_solves 8500
  have hlen : (Acols [8500, 8501, 8502] inv).length = 3 := (acols_row _ (by simp) inv hinv).1
  obtain ⟨c0, c1, c2, hA⟩ := List.length_eq_three.mp hlen
  rw [hA] at hcol
  have hc1 : c1 = exC 8500 := by simpa using hcol
  have hwt : ∀ w, FlWeights fl [8500, 8501, 8502] 3 ((Acols [8500, 8501, 8502] inv).map (·.map fl)) 8501 w →
      ∃ a b c, w = [a, b, c] ∧ (b = -32768 ∨ b = -40048) := by
    intro w hw
    unfold FlWeights at hw
    rw [hA, hc1, hpick] at hw
    cases hw with
    | cons h0 hw =>
      cases hw with
      | cons h1 hw =>
        cases hw with
        | cons h2 hw => cases hw; exact ⟨_, _, _, rfl, ex_horner h _ h1⟩
  have hex : ∀ (l : List ℝ) (acc : ℝ), ∃ r, FlHorner fl 8501 acc l r := by
    intro l
    induction l with
    | nil => exact fun acc => ⟨acc, rfl⟩
    | cons c l ih => exact fun acc => (ih (fl (acc * 8501 + c))).imp fun r hr => ⟨_, .inr rfl, hr⟩
  refine ⟨?_, fun w hw => ?_, ?_, fun r hr => ?_⟩
  · obtain ⟨a, b, c, hw⟩ := List.length_eq_three.mp (show (weights [8500, 8501, 8502] 3 inv 8501).length = 3 by
      rw [weights, List.length_map, hlen])
    have key := fun y0 : List ℝ => fun hy : y0.length = 3 => C76_weights_knot [8500, 8501, 8502] y0 (by simp) hs hy inv hinv 1 (by simp)
    have k0 := key [1, 0, 0] rfl
    have k1 := key [0, 1, 0] rfl
    have k2 := key [0, 0, 1] rfl
    have ex : at' [8500, 8501, (8502 : ℝ)] 1 = 8501 := rfl
    rw [ex, hw] at k0 k1 k2
    simp [dot, at'] at k0 k1 k2
    rw [hw, k0, k1, k2]
  · obtain ⟨a, b, c, rfl, hb⟩ := hwt w hw
    exact ⟨rfl, by simpa [at'] using hb⟩
  · obtain ⟨w, hw⟩ : ∃ w, FlWeights fl [8500, 8501, 8502] 3 ((Acols [8500, 8501, 8502] inv).map (·.map fl)) 8501 w := by
      unfold FlWeights
      generalize (Acols [8500, 8501, 8502] inv).map (·.map fl) = A
      induction A with
      | nil => exact ⟨[], .nil⟩
      | cons a A ih =>
        obtain ⟨w, hw⟩ := ih
        obtain ⟨r, hr⟩ := hex (block 3 a (pickPoly [8500, 8501, 8502] 8501)) 0
        exact ⟨r :: w, .cons hr hw⟩
    have hd : ∀ l : List (ℝ × ℝ), ∃ r, FlDot fl l r := by
      intro l
      induction l with
      | nil => exact ⟨0, .zero⟩
      | cons a l ih => obtain ⟨r, hr⟩ := ih; exact ⟨_, .fma a.1 a.2 hr⟩
    obtain ⟨r, hr⟩ := hd (w.zip [0, 1, 0])
    exact ⟨r, w, hw, hr⟩
  · obtain ⟨w, hw, hd⟩ := hr
    obtain ⟨a, b, c, rfl, hb⟩ := hwt w hw
    have hbf : fl b = b := by
      rcases hb with rfl | rfl
      · have := h.self (isFl_int (p := 24) (by norm_num) (m := -32768) (by norm_num) 0); norm_num at this ⊢; exact this
      · have := h.self (isFl_int (p := 24) (by norm_num) (m := -40048) (by norm_num) 0); norm_num at this ⊢; exact this
    have := (flDot_unit h hbf _ r hd (by simp) (by simp)).1
    rw [this]
    simpa using hb

end Verif.Interp
