import Verif.Interp.FloatProps
import Verif.Interp.FloatSplineModel
import Mathlib.Data.List.Perm.Basic
import Mathlib.Analysis.SpecialFunctions.Exp

/-! # C156: the error of N-dimensional interpolation in floating point -/

namespace Verif.Interp

open Verif.Round

variable {p : ℕ} {fl : ℝ → ℝ}

/-! ### Reductions as exact reductions of changed terms -/

/-- `a'` is `a` with at most `K` roundings. -/
def Rel (p K : ℕ) (a a' : ℝ) : Prop := ∃ t, NearOne p K t ∧ a' = a * t

theorem Rel.mono (hp : 1 ≤ p) {K L : ℕ} {a a' : ℝ} (h : Rel p K a a') (hKL : K ≤ L) : Rel p L a a' := by
  obtain ⟨t, ht, e⟩ := h; exact ⟨t, ht.mono hp hKL, e⟩

theorem Rel.trans (hp : 1 ≤ p) {K L : ℕ} {a b c : ℝ} (h : Rel p K a b) (h' : Rel p L b c) : Rel p (K + L) a c := by
  obtain ⟨t, ht, rfl⟩ := h; obtain ⟨s, hs, rfl⟩ := h'
  exact ⟨t * s, ht.mul hp hs, by ring⟩

theorem Rel.round (h : Nearest p fl) (hp : 1 ≤ p) (a : ℝ) : Rel p 1 a (fl a) := near_fl h hp a

/-- A sum in any order is the exact sum of terms with at most as many roundings each as there are terms. -/
theorem flFold_sum_rel (h : Nearest p fl) (hp : 1 ≤ p) {l : List ℝ} {r : ℝ} (hf : FlFold (fun a b => fl (a + b)) 0 l r)
    (hl : ∀ x ∈ l, IsFl p x) : IsFl p r ∧ ∃ l', List.Forall₂ (Rel p l.length) l l' ∧ r = l'.sum := by
  induction hf with
  | nil => exact ⟨isFl_zero, [], .nil, rfl⟩
  | single x => exact ⟨hl x (by simp), [x], .cons ⟨1, NearOne.one.mono hp (by simp), by ring⟩ .nil, by simp⟩
  | @node l r a b _ _ ih1 ih2 =>
    obtain ⟨f1, l1, h1, e1⟩ := ih1 fun x hx => hl x (List.mem_append_left _ hx)
    obtain ⟨f2, l2, h2, e2⟩ := ih2 fun x hx => hl x (List.mem_append_right _ hx)
    rcases Nat.eq_zero_or_pos l.length with h0 | hl0
    · obtain rfl := List.length_eq_zero_iff.mp h0
      cases h1
      have : a = 0 := by simpa using e1
      rw [this, zero_add, h.self f2]
      exact ⟨f2, l2, by simpa using h2, e2⟩
    rcases Nat.eq_zero_or_pos r.length with h0 | hr0
    · obtain rfl := List.length_eq_zero_iff.mp h0
      cases h2
      have : b = 0 := by simpa using e2
      rw [this, add_zero, h.self f1]
      exact ⟨f1, l1, by simpa using h1, e1⟩
    obtain ⟨t, ht, e⟩ := near_fl h hp (a + b)
    have key : ∀ {m : List ℝ} {m' : List ℝ} {K : ℕ}, List.Forall₂ (Rel p K) m m' → K + 1 ≤ (l ++ r).length →
        List.Forall₂ (Rel p (l ++ r).length) m (m'.map (· * t)) := by
      intro m m' K hm hK
      rw [List.forall₂_map_right_iff]
      refine hm.imp fun a b hab => ?_
      exact (hab.trans hp ⟨t, ht, rfl⟩).mono hp hK
    refine ⟨h.mem _, l1.map (· * t) ++ l2.map (· * t), List.rel_append (key h1 (by simp; omega)) (key h2 (by simp; omega)), ?_⟩
    rw [e, e1, e2, List.sum_append, List.sum_map_mul_right, List.sum_map_mul_right]
    simp; ring
  | perm hperm _ ih =>
    obtain ⟨f, l', h', e⟩ := ih fun x hx => hl x (hperm.subset hx)
    obtain ⟨m, hm, hm'⟩ := List.perm_comp_forall₂ hperm.symm h'
    exact ⟨f, m, by rw [← hperm.length_eq]; exact hm, by rw [e, hm'.sum_eq]⟩

/-- A product in any order is the exact one with fewer roundings than there are factors. -/
theorem flFold_prod_rel (h : Nearest p fl) (hp : 1 ≤ p) {l : List ℝ} {r : ℝ} (hf : FlFold (fun a b => fl (a * b)) 1 l r)
    (hl : ∀ x ∈ l, IsFl p x) : IsFl p r ∧ Rel p (l.length - 1) l.prod r := by
  have zero : ∀ {t : ℝ}, NearOne p 0 t → t = 1 := fun {t} ht => by
    have := ht.1; have h' := ht.2; simp at this h'; linarith
  induction hf with
  | nil => exact ⟨isFl_one hp, 1, NearOne.one, by simp⟩
  | single x => exact ⟨hl x (by simp), 1, NearOne.one.mono hp (by simp), by simp⟩
  | @node l r a b ha hb ih1 ih2 =>
    obtain ⟨f1, t1, h1, e1⟩ := ih1 fun x hx => hl x (List.mem_append_left _ hx)
    obtain ⟨f2, t2, h2, e2⟩ := ih2 fun x hx => hl x (List.mem_append_right _ hx)
    rcases Nat.eq_zero_or_pos l.length with h0 | hl0
    · obtain rfl := List.length_eq_zero_iff.mp h0
      have : a = 1 := by rw [e1, zero h1]; simp
      rw [this, one_mul, h.self f2]
      exact ⟨f2, t2, by simpa using h2, by simpa using e2⟩
    rcases Nat.eq_zero_or_pos r.length with h0 | hr0
    · obtain rfl := List.length_eq_zero_iff.mp h0
      have : b = 1 := by rw [e2, zero h2]; simp
      rw [this, mul_one, h.self f1]
      exact ⟨f1, t1, by simpa using h1, by simpa using e1⟩
    obtain ⟨t, ht, e⟩ := near_fl h hp (a * b)
    refine ⟨h.mem _, t1 * t2 * t, ((h1.mul hp h2).mul hp ht).mono hp (by simp; omega), ?_⟩
    rw [e, e1, e2, List.prod_append]; ring
  | perm hperm _ ih =>
    obtain ⟨f, b⟩ := ih fun x hx => hl x (hperm.subset hx)
    exact ⟨f, by rwa [← hperm.length_eq, ← hperm.prod_eq]⟩

/-! ### The weights -/

/-- The two factors made from a computed weight are those of the exact one, up to `6 u`. -/
def WNear (p : ℕ) (fl : ℝ → ℝ) (w w' : ℝ) : Prop :=
  0 ≤ w ∧ w ≤ 1 ∧ ∀ d : ℕ, d = 0 ∨ d = 1 → |fl (d - w') - (d - w)| ≤ 6 * (2 ^ p)⁻¹

theorem flWeight1_near (h : Nearest p fl) (hp : 5 ≤ p) (g : List ℝ) (h2 : 2 ≤ g.length) (hs : g.Pairwise (· < ·)) (t : ℝ)
    (ht : at' g 0 ≤ t ∧ t ≤ at' g (g.length - 1)) : WNear p fl (weight1 g t) (flWeight1 fl g t) := by
  obtain ⟨f0, f1, -⟩ := frac_range g h2 hs t ht
  have hpl := project_lt g h2 t
  have hd := sorted_lt g hs _ _ (Nat.lt_succ_self (projectOne g t)) hpl
  simp only [Nat.succ_eq_add_one] at hd
  unfold frac at f0 f1
  refine ⟨by linarith, by linarith, ?_⟩
  unfold weight1 at f0 f1 ⊢
  unfold flWeight1
  rw [at'_diff g _ hpl] at *
  rw [at'_flDiff g _ hpl]
  generalize at' g (projectOne g t) = x0 at *
  generalize at' g (projectOne g t + 1) = x1 at *
  obtain ⟨a, ha, ea⟩ := h.factor (by omega) (t - x0)
  obtain ⟨c, hc, ec⟩ := h.factor (by omega) (x1 - x0)
  obtain ⟨q, hq, eq⟩ := h.factor (by omega) (fl (t - x0) / fl (x1 - x0))
  rw [eq, ea, ec]
  have hu := unit_le hp
  have hu0 : (0 : ℝ) ≤ ((2 : ℝ) ^ p)⁻¹ := by positivity
  have hc' : 0 < 1 + c := by have := (abs_le.mp hc).1; linarith
  have hD : 0 < x1 - x0 := by linarith
  have es : (t - x0) * (1 + a) / ((x1 - x0) * (1 + c)) * (1 + q) = (t - x0) / (x1 - x0) * ((1 + a) * (1 + q) / (1 + c)) := by
    field_simp
  rw [es]
  clear es
  generalize (t - x0) / (x1 - x0) = s at *
  set u := ((2 : ℝ) ^ p)⁻¹
  rw [abs_le] at ha hc hq
  have hF : |(1 + a) * (1 + q) / (1 + c) - 1| ≤ 16 / 5 * u := by
    have n1 : 0 ≤ 1 - u := by linarith
    have up : (1 + a) * (1 + q) ≤ (1 + u) * (1 + u) := mul_le_mul (by linarith) (by linarith) (by linarith) (by linarith)
    have lo : (1 - u) * (1 - u) ≤ (1 + a) * (1 + q) := mul_le_mul (by linarith) (by linarith) n1 (by linarith)
    have hu2 : u * u ≤ u / 32 := by nlinarith
    rw [abs_le, le_sub_iff_add_le, sub_le_iff_le_add, le_div_iff₀ hc', div_le_iff₀ hc']
    constructor
    · have : (-(16 / 5 * u) + 1) * (1 + c) ≤ (-(16 / 5 * u) + 1) * (1 + u) := mul_le_mul_of_nonneg_left (by linarith) (by linarith)
      nlinarith
    · have : (16 / 5 * u + 1) * (1 - u) ≤ (16 / 5 * u + 1) * (1 + c) := mul_le_mul_of_nonneg_left (by linarith) (by linarith)
      nlinarith
  generalize (1 + a) * (1 + q) / (1 + c) = F at *
  have hS : |s * F - s| ≤ 16 / 5 * u := by
    rw [show s * F - s = s * (F - 1) by ring, abs_mul, abs_of_nonneg (by linarith : 0 ≤ s)]
    calc _ ≤ 1 * (16 / 5 * u) := mul_le_mul (by linarith) hF (abs_nonneg _) zero_le_one
      _ = _ := one_mul _
  generalize s * F = S at *
  obtain ⟨b, hb, eb⟩ := h.factor (by omega) (1 - S)
  have hself : fl (-fl (1 - S)) = -fl (1 - S) := h.self (isFl_neg (h.mem _))
  obtain ⟨e, he, ee⟩ := h.factor (by omega) (1 - fl (1 - S))
  rw [abs_le] at hS hb he
  have hW : |fl (1 - S) - (1 - s)| ≤ 22 / 5 * u := by
    rw [eb, abs_le]
    have : |(1 - S) * b| ≤ (1 + 1 / 10) * u := by
      rw [abs_mul]
      exact mul_le_mul (abs_le.mpr ⟨by linarith, by linarith⟩) (abs_le.mpr hb) (abs_nonneg _) (by norm_num)
    rw [abs_le] at this
    constructor <;> nlinarith [this.1, this.2]
  intro d hd'
  rcases hd' with rfl | rfl
  · rw [Nat.cast_zero, zero_sub, zero_sub, hself, show -fl (1 - S) - -(1 - s) = -(fl (1 - S) - (1 - s)) by ring, abs_neg]
    exact hW.trans (by linarith)
  · rw [Nat.cast_one, ee]
    generalize fl (1 - S) = W at *
    rw [abs_le] at hW
    have : |(1 - W) * e| ≤ (1 + 3 / 20) * u := by
      rw [abs_mul]
      exact mul_le_mul (abs_le.mpr ⟨by linarith, by linarith⟩) (abs_le.mpr he) (abs_nonneg _) (by norm_num)
    rw [abs_le] at this ⊢
    constructor <;> nlinarith [this.1, this.2]

/-- Products of nearby factors. -/
theorem prod_near {ws ws' : List ℝ} (hw : List.Forall₂ (WNear p fl) ws ws') :
    ∀ d ∈ corners ws.length, cornerWeight ws d ≤ (List.zipWith (fun (d : ℕ) w => |(d : ℝ) - w| + 6 * (2 ^ p)⁻¹) d ws).prod ∧
      |(List.zipWith (fun (d : ℕ) w => fl ((d : ℝ) - w)) d ws').prod - (List.zipWith (fun (d : ℕ) w => (d : ℝ) - w) d ws).prod| ≤
        (List.zipWith (fun (d : ℕ) w => |(d : ℝ) - w| + 6 * (2 ^ p)⁻¹) d ws).prod - cornerWeight ws d := by
  have hu0 : (0 : ℝ) ≤ ((2 : ℝ) ^ p)⁻¹ := by positivity
  induction hw with
  | nil => simp [corners, cornerWeight]
  | @cons w w' ws ws' h1 _ ih =>
    intro d hd
    obtain ⟨k, e, hk, he, rfl⟩ : ∃ k e, (k = 0 ∨ k = 1) ∧ e ∈ corners ws.length ∧ k :: e = d := by
      simp only [List.length_cons, corners, List.flatMap_cons, List.flatMap_nil, List.append_nil, List.mem_append, List.mem_map] at hd
      rcases hd with ⟨e, he, rfl⟩ | ⟨e, he, rfl⟩
      · exact ⟨0, e, .inl rfl, he, rfl⟩
      · exact ⟨1, e, .inr rfl, he, rfl⟩
    obtain ⟨i1, i2⟩ := ih e he
    have h3 := h1.2.2 k hk
    rw [cornerWeight_cons]
    simp only [List.zipWith_cons_cons, List.prod_cons]
    have hA : cornerWeight ws e = |(List.zipWith (fun (d : ℕ) w => (d : ℝ) - w) e ws).prod| := rfl
    rw [hA] at i1 i2 ⊢
    generalize (List.zipWith (fun (d : ℕ) w => (d : ℝ) - w) e ws).prod = A at *
    generalize (List.zipWith (fun (d : ℕ) w => fl ((d : ℝ) - w)) e ws').prod = A' at *
    generalize (List.zipWith (fun (d : ℕ) w => |(d : ℝ) - w| + 6 * (2 ^ p)⁻¹) e ws).prod = B at *
    generalize (k : ℝ) - w = a at *
    generalize fl ((k : ℝ) - w') = a' at *
    set ε := 6 * ((2 : ℝ) ^ p)⁻¹
    have hε : 0 ≤ ε := by positivity
    have hB : 0 ≤ B := (abs_nonneg A).trans i1
    refine ⟨?_, ?_⟩
    · exact mul_le_mul (by linarith) i1 (abs_nonneg _) (by positivity)
    · have e1 : a' * A' - a * A = a' * (A' - A) + (a' - a) * A := by ring
      have ha' : |a'| ≤ |a| + ε := by
        have := abs_add_le a (a' - a)
        rw [show a + (a' - a) = a' by ring] at this
        linarith
      rw [e1]
      refine (abs_add_le _ _).trans ?_
      rw [abs_mul, abs_mul]
      have k1 := mul_le_mul ha' i2 (abs_nonneg _) (by positivity)
      have k2 := mul_le_mul_of_nonneg_right h3 (abs_nonneg A)
      nlinarith

theorem sum_corner_prod (f : ℕ → ℝ → ℝ) (ws : List ℝ) :
    ((corners ws.length).map fun d => (List.zipWith f d ws).prod).sum = (ws.map fun w => f 0 w + f 1 w).prod := by
  induction ws with
  | nil => simp [corners]
  | cons w ws ih =>
    simp only [List.length_cons, corners, List.flatMap_cons, List.flatMap_nil, List.append_nil, List.map_append,
      List.map_map, List.sum_append, List.map_cons, List.prod_cons]
    rw [← ih, add_mul, ← List.sum_map_mul_left, ← List.sum_map_mul_left]
    rfl

theorem sum_bound {ws ws' : List ℝ} (hw : List.Forall₂ (WNear p fl) ws ws') :
    ((corners ws.length).map fun d => (List.zipWith (fun (d : ℕ) w => |(d : ℝ) - w| + 6 * (2 ^ p)⁻¹) d ws).prod).sum =
      (1 + 12 * ((2 : ℝ) ^ p)⁻¹) ^ ws.length := by
  rw [sum_corner_prod]
  have : ∀ w ∈ ws, |((0 : ℕ) : ℝ) - w| + 6 * ((2 : ℝ) ^ p)⁻¹ + (|((1 : ℕ) : ℝ) - w| + 6 * (2 ^ p)⁻¹) =
      1 + 12 * ((2 : ℝ) ^ p)⁻¹ := by
    intro w hm
    obtain ⟨k, hk, rfl⟩ := List.getElem_of_mem hm
    obtain ⟨a, b, -⟩ := (List.forall₂_iff_get.mp hw).2 k hk (by rw [← hw.length_eq]; exact hk)
    simp only [List.get_eq_getElem] at a b
    rw [Nat.cast_zero, Nat.cast_one, zero_sub, abs_neg, abs_of_nonneg a, abs_of_nonneg (by linarith)]
    ring
  rw [List.map_congr_left this]
  simp

theorem sum_cornerWeight {ws ws' : List ℝ} (hw : List.Forall₂ (WNear p fl) ws ws') :
    ((corners ws.length).map (cornerWeight ws)).sum = 1 := by
  induction hw with
  | nil => simp [corners, cornerWeight]
  | @cons w w' ws ws' h1 _ ih =>
    simp only [List.length_cons, corners, List.flatMap_cons, List.flatMap_nil, List.append_nil, List.map_append,
      List.map_map, List.sum_append, Function.comp_def, cornerWeight_cons, List.sum_map_mul_left, ih]
    rw [Nat.cast_zero, Nat.cast_one, zero_sub, abs_neg, abs_of_nonneg h1.1, abs_of_nonneg (by linarith [h1.2.1])]
    ring

/-- Term by term errors of a sum. -/
theorem sum_error {K : ℕ} (f w e : List ℕ → ℝ) (cs : List (List ℕ)) (l' : List ℝ)
    (hl : List.Forall₂ (Rel p K) (cs.map f) l') (he : ∀ d ∈ cs, ∀ a', Rel p K (f d) a' → |a' - w d| ≤ e d) :
    |l'.sum - (cs.map w).sum| ≤ (cs.map e).sum := by
  induction cs generalizing l' with
  | nil => cases hl; simp
  | cons d cs ih =>
    cases hl with
    | @cons _ a _ l' h1 h2 =>
      have i := ih l' h2 fun d hd => he d (List.mem_cons_of_mem _ hd)
      have j := he d List.mem_cons_self a h1
      simp only [List.map_cons, List.sum_cons]
      rw [show a + l'.sum - (w d + (cs.map w).sum) = (a - w d) + (l'.sum - (cs.map w).sum) by ring]
      exact (abs_add_le _ _).trans (add_le_add j i)

theorem weights_near (h : Nearest p fl) (hp : 5 ≤ p) (grids : List (List ℝ)) (hg : Grids grids) (x : List ℝ) (hx : InRange grids x) :
    List.Forall₂ (WNear p fl) (List.zipWith weight1 grids x) (List.zipWith (flWeight1 fl) grids x) := by
  induction hx with
  | nil => exact .nil
  | @cons g t gs ts h1 _ ih =>
    have hg' := hg g List.mem_cons_self
    exact .cons (flWeight1_near h hp g hg'.1 hg'.2 t h1) (ih fun g' h' => hg g' (List.mem_cons_of_mem _ h'))

theorem count_bound (n : ℕ) : 7 * n + 1 ≤ 4 * 2 ^ n := by
  match n with
  | 0 => norm_num
  | 1 => norm_num
  | n + 2 =>
    induction n with
    | zero => norm_num
    | succ n ih => rw [show n + 1 + 2 = (n + 2) + 1 from rfl, pow_succ]; omega

/-- All roundings together. -/
theorem total_bound {u : ℝ} (hu0 : 0 ≤ u) (n : ℕ) (hS : 40 * 2 ^ n * u ≤ 1) :
    (1 + 12 * u) ^ n * ((1 - u) ^ (2 ^ n + n + 1))⁻¹ - 1 ≤ 40 / 3 * 2 ^ n * u := by
  have h2 : (1 : ℝ) ≤ 2 ^ n := one_le_pow₀ (by norm_num)
  have hu : u ≤ 1 / 40 := by nlinarith
  have hc : ((7 * n + 1 : ℕ) : ℝ) ≤ ((4 * 2 ^ n : ℕ) : ℝ) := by exact_mod_cast count_bound n
  push_cast at hc
  set S := 10 * 2 ^ n * u with hSd
  have hS1 : S ≤ 1 / 4 := by rw [hSd]; linarith
  have hS0 : 0 ≤ S := by positivity
  have a1 : (1 + 12 * u) ^ n ≤ Real.exp (n * (12 * u)) := by
    rw [Real.exp_nat_mul]
    exact pow_le_pow_left₀ (by linarith) (by linarith [Real.add_one_le_exp (12 * u)]) n
  have a2 : (1 - u)⁻¹ ≤ Real.exp (2 * u) := by
    have := Real.add_one_le_exp (2 * u)
    refine le_trans ?_ this
    rw [inv_le_iff_one_le_mul₀ (by linarith)]
    nlinarith
  have a3 : ((1 - u) ^ (2 ^ n + n + 1))⁻¹ ≤ Real.exp (((2 ^ n + n + 1 : ℕ) : ℝ) * (2 * u)) := by
    rw [Real.exp_nat_mul, ← inv_pow]
    exact pow_le_pow_left₀ (inv_nonneg.mpr (by linarith)) a2 _
  have a4 : (1 + 12 * u) ^ n * ((1 - u) ^ (2 ^ n + n + 1))⁻¹ ≤ Real.exp S := by
    calc _ ≤ Real.exp (n * (12 * u)) * Real.exp (((2 ^ n + n + 1 : ℕ) : ℝ) * (2 * u)) :=
          mul_le_mul a1 a3 (inv_nonneg.mpr (pow_nonneg (by linarith) _)) (Real.exp_pos _).le
      _ = Real.exp (n * (12 * u) + ((2 ^ n + n + 1 : ℕ) : ℝ) * (2 * u)) := (Real.exp_add _ _).symm
      _ ≤ _ := by
        apply Real.exp_le_exp.mpr
        push_cast
        rw [hSd]
        nlinarith
  have a5 : Real.exp S ≤ 1 + 4 / 3 * S := by
    have h1 : 1 - S ≤ Real.exp (-S) := by linarith [Real.add_one_le_exp (-S)]
    have h3 : Real.exp S * Real.exp (-S) = 1 := by rw [← Real.exp_add]; simp
    have h4 := Real.exp_pos S
    have h5 : Real.exp S * (1 - S) ≤ 1 := (mul_le_mul_of_nonneg_left h1 h4.le).trans h3.le
    have h6 : Real.exp S ≤ 4 / 3 := by nlinarith
    nlinarith
  calc _ ≤ 4 / 3 * S := by linarith
    _ = _ := by rw [hSd]; ring

/-- Numerator and denominator. -/
theorem nd_core (h : Nearest p fl) (hp : 1 ≤ p) {n m : ℕ} (cs : List (List ℕ)) (hm : cs.length = m) (W B Q P v : List ℕ → ℝ)
    {b M : ℝ} (hM : 0 ≤ M) (hW0 : ∀ d ∈ cs, 0 ≤ W d) (hW1 : (cs.map W).sum = 1) (hBs : (cs.map B).sum = b)
    (hWB : ∀ d ∈ cs, W d ≤ B d) (hQ : ∀ d ∈ cs, |(|Q d| - W d)| ≤ B d - W d)
    (hP : ∀ d ∈ cs, IsFl p (P d) ∧ Rel p n (Q d) (P d)) (hv : ∀ d ∈ cs, |v d| ≤ M) {N D : ℝ}
    (hN : FlFold (fun a b => fl (a + b)) 0 (cs.map fun d => fl (|P d| * v d)) N)
    (hD : FlFold (fun a b => fl (a + b)) 0 (cs.map fun d => |P d|) D) :
    |N - (cs.map fun d => W d * v d).sum| ≤ M * (b * ((1 - ((2 : ℝ) ^ p)⁻¹) ^ (m + n + 1))⁻¹ - 1) ∧
      |D - 1| ≤ b * ((1 - ((2 : ℝ) ^ p)⁻¹) ^ (m + n + 1))⁻¹ - 1 ∧ |(cs.map fun d => W d * v d).sum| ≤ M := by
  set g := ((1 - ((2 : ℝ) ^ p)⁻¹) ^ (m + n + 1))⁻¹ with hg
  have habs : ∀ d ∈ cs, Rel p n |Q d| |P d| := fun d hd => by
    obtain ⟨t, ht, e⟩ := (hP d hd).2
    exact ⟨t, ht, by rw [e, abs_mul, abs_of_pos (ht.pos hp)]⟩
  -- one corner
  have one : ∀ d ∈ cs, ∀ α, NearOne p (m + n + 1) α → |(|Q d| * α - W d)| ≤ g * B d - W d := fun d hd α hα => by
    have h1 := hα.abs_sub_one hp
    rw [← hg] at h1
    have h2 := hQ d hd
    have h3 : |Q d| ≤ B d := by rw [abs_le] at h2; linarith [h2.2]
    rw [show |Q d| * α - W d = |Q d| * (α - 1) + (|Q d| - W d) by ring]
    refine (abs_add_le _ _).trans ?_
    rw [abs_mul, abs_abs]
    have h4 := mul_le_mul h3 h1 (abs_nonneg _) ((abs_nonneg _).trans h3)
    nlinarith
  have hsum : (cs.map fun d => g * B d - W d).sum = b * g - 1 := by
    rw [← hW1, ← hBs, mul_comm]
    clear hm hW0 hW1 hBs hWB hQ hP hv hN hD habs one
    induction cs with
    | nil => simp
    | cons d cs ih => simp only [List.map_cons, List.sum_cons, ih]; ring
  refine ⟨?_, ?_, ?_⟩
  · obtain ⟨-, l', hl', rfl⟩ := flFold_sum_rel h hp hN fun y hy => by
      obtain ⟨d, -, rfl⟩ := List.mem_map.mp hy; exact h.mem _
    rw [List.length_map, hm] at hl'
    rw [← hsum, ← List.sum_map_mul_left]
    refine sum_error _ (fun d => W d * v d) (fun d => M * (g * B d - W d)) cs l' hl' fun d hd a' ha => ?_
    obtain ⟨t1, ht1, e1⟩ := habs d hd
    obtain ⟨t2, ht2, e2⟩ := near_fl h hp (|P d| * v d)
    obtain ⟨t3, ht3, e3⟩ := ha
    have hα := one d hd (t1 * t2 * t3) (((ht1.mul hp ht2).mul hp ht3).mono hp (by omega))
    have : a' - W d * v d = v d * (|Q d| * (t1 * t2 * t3) - W d) := by rw [e3, e2, e1]; ring
    rw [this, abs_mul]
    exact mul_le_mul (hv d hd) hα (abs_nonneg _) hM
  · obtain ⟨-, l', hl', rfl⟩ := flFold_sum_rel h hp hD fun y hy => by
      obtain ⟨d, hd, rfl⟩ := List.mem_map.mp hy; exact isFl_abs (hP d hd).1
    rw [List.length_map, hm] at hl'
    rw [← hsum, ← hW1]
    rw [hW1, ← hW1]
    refine sum_error _ W (fun d => g * B d - W d) cs l' hl' fun d hd a' ha => ?_
    obtain ⟨t1, ht1, e1⟩ := habs d hd
    obtain ⟨t3, ht3, e3⟩ := ha
    have hα := one d hd (t1 * t3) ((ht1.mul hp ht3).mono hp (by omega))
    rwa [e3, e1, mul_assoc]
  · have : |(cs.map fun d => W d * v d).sum| ≤ (cs.map fun d => M * W d).sum := by
      clear hm hW1 hBs hWB hQ hP hN hD habs one hsum
      induction cs with
      | nil => simp
      | cons d cs ih =>
        simp only [List.map_cons, List.sum_cons]
        have i := ih (fun d hd => hW0 d (List.mem_cons_of_mem _ hd)) fun d hd => hv d (List.mem_cons_of_mem _ hd)
        refine (abs_add_le _ _).trans (add_le_add ?_ i)
        rw [abs_mul, abs_of_nonneg (hW0 d List.mem_cons_self), mul_comm]
        exact mul_le_mul_of_nonneg_right (hv d List.mem_cons_self) (hW0 d List.mem_cons_self)
    rwa [List.sum_map_mul_left, hW1, mul_one] at this

/-- The quotient. -/
theorem nd_quotient {N D V M Z u δ : ℝ} (hM : 0 ≤ M) (hZ : Z ≤ 1 / 3) (hu : u ≤ Z) (hN : |N - V| ≤ M * Z)
    (hD : |D - 1| ≤ Z) (hV : |V| ≤ M) (hδ : |δ| ≤ u) : |N / D * (1 + δ) - V| ≤ 6 * Z * M := by
  have hu0 : 0 ≤ u := (abs_nonneg _).trans hδ
  have hZ0 : 0 ≤ Z := hu0.trans hu
  have hD' := abs_le.mp hD
  have hDp : 2 / 3 ≤ D := by linarith
  have hDpos : 0 < D := by linarith
  have h1 : |N / D - V| ≤ 3 * Z * M := by
    have e : N / D - V = ((N - V) - V * (D - 1)) / D := by field_simp; ring
    rw [e, abs_div, abs_of_pos hDpos, div_le_iff₀ hDpos]
    have h2 : |V * (D - 1)| ≤ M * Z := by rw [abs_mul]; exact mul_le_mul hV hD (abs_nonneg _) hM
    calc |N - V - V * (D - 1)| ≤ |N - V| + |V * (D - 1)| := abs_sub _ _
      _ ≤ 2 * (Z * M) := by linarith
      _ = 3 * Z * M * (2 / 3) := by ring
      _ ≤ 3 * Z * M * D := mul_le_mul_of_nonneg_left hDp (by positivity)
  have e : N / D * (1 + δ) - V = (N / D - V) * (1 + δ) + V * δ := by ring
  rw [e]
  have h3 : |1 + δ| ≤ 4 / 3 := (abs_add_le _ _).trans (by rw [abs_one]; linarith)
  have h4 : |(N / D - V) * (1 + δ)| ≤ 3 * Z * M * (4 / 3) := by
    rw [abs_mul]; exact mul_le_mul h1 h3 (abs_nonneg _) (by positivity)
  have h5 : |V * δ| ≤ M * Z := by rw [abs_mul]; exact mul_le_mul hV (hδ.trans hu) (abs_nonneg _) hM
  refine (abs_add_le _ _).trans ?_
  nlinarith

/-- **C156** within the grid, ends included, the N-dimensional interpolant differs from the exact one by at most `80 * 2 ^ N` times
`2 ^ (-p)` times the largest value in the table, whatever the order of products and sums. -/
theorem C156_nd_error_partial (h : Nearest p fl) (grids : List (List ℝ)) (hp : 40 * 2 ^ grids.length ≤ 2 ^ p) (hg : Grids grids)
    (values x : List ℝ) (hx : InRange grids x) (M : ℝ) (hM : 0 ≤ M) (hv : ∀ v ∈ values, |v| ≤ M) (r : ℝ)
    (hr : FlLinearNd fl grids values x r) :
    |r - linearNd grids values x| ≤ 80 * 2 ^ grids.length / 2 ^ p * M := by
  have hp5 : 5 ≤ p := by
    by_contra hc
    have h1 : (2 : ℕ) ^ p ≤ 2 ^ 4 := Nat.pow_le_pow_right (by norm_num) (by omega)
    have h2 : 1 ≤ 2 ^ grids.length := Nat.one_le_two_pow
    omega
  have hp1 : 1 ≤ p := by omega
  have hlen := inRange_length hx
  have hW := weights_near h hp5 grids hg x hx
  obtain ⟨P, N, D, hP, hN, hD, rfl⟩ := hr
  set n := grids.length with hn
  have hl1 : (List.zipWith weight1 grids x).length = n := by simp [hlen, ← hn]
  have hl2 : (List.zipWith (flWeight1 fl) grids x).length = n := by simp [hlen, ← hn]
  have hone := sum_cornerWeight hW
  have hB := sum_bound hW
  have hnear := prod_near hW
  rw [hl1] at hone hB hnear
  have hV : linearNd grids values x = ((corners n).map fun d => cornerWeight (List.zipWith weight1 grids x) d *
      at' values (flatIndex (List.zipWith projectOne grids x) d (strides (grids.map List.length)))).sum := by
    unfold linearNd
    simp only [← hn]
    rw [hone, div_one]
  have hval : ∀ d, |at' values (flatIndex (List.zipWith projectOne grids x) d (strides (grids.map List.length)))| ≤ M := fun d => by
    by_cases hk : flatIndex (List.zipWith projectOne grids x) d (strides (grids.map List.length)) < values.length
    · exact hv _ (at'_mem _ _ hk)
    · rw [at', List.getD_eq_default _ _ (by omega), abs_zero]; exact hM
  have hPd : ∀ d ∈ corners n, IsFl p (P d) ∧
      Rel p n (List.zipWith (fun (d : ℕ) w => fl ((d : ℝ) - w)) d (List.zipWith (flWeight1 fl) grids x)).prod (P d) := fun d hd => by
    obtain ⟨f, hrel⟩ := flFold_prod_rel h hp1 (hP d hd) (isFl_factors h _ _)
    exact ⟨f, hrel.mono hp1 (by simp [(corners_length n d hd).1])⟩
  obtain ⟨cN, cD, cV⟩ := nd_core h hp1 (n := n) (m := 2 ^ n) (corners n) (corners_card n) (cornerWeight (List.zipWith weight1 grids x))
    (fun d => (List.zipWith (fun (d : ℕ) w => |(d : ℝ) - w| + 6 * (2 ^ p)⁻¹) d (List.zipWith weight1 grids x)).prod)
    (fun d => (List.zipWith (fun (d : ℕ) w => fl ((d : ℝ) - w)) d (List.zipWith (flWeight1 fl) grids x)).prod) P
    (fun d => at' values (flatIndex (List.zipWith projectOne grids x) d (strides (grids.map List.length))))
    hM (fun d _ => abs_nonneg _) hone hB (fun d hd => (hnear d hd).1)
    (fun d hd => (abs_abs_sub_abs_le _ _).trans (hnear d hd).2) hPd (fun d _ => hval d) hN hD
  set u := ((2 : ℝ) ^ p)⁻¹ with hu
  have hu0 : 0 < u := by positivity
  have hS : 40 * 2 ^ n * u ≤ 1 := by
    have : ((40 * 2 ^ n : ℕ) : ℝ) ≤ ((2 ^ p : ℕ) : ℝ) := by exact_mod_cast hp
    push_cast at this
    rw [hu, ← div_eq_mul_inv, div_le_one (by positivity)]; exact this
  have hT := total_bound hu0.le n hS
  have hs1 : 40 / 3 * 2 ^ n * u ≤ 1 / 3 := by linarith
  have hs2 : u ≤ 40 / 3 * 2 ^ n * u := by
    have : (1 : ℝ) ≤ 2 ^ n := one_le_pow₀ (by norm_num)
    nlinarith
  obtain ⟨δ, hδ, e⟩ := h.factor hp1 (N / D)
  rw [hV, e]
  refine (nd_quotient hM hs1 hs2 (cN.trans (mul_le_mul_of_nonneg_left hT hM)) (cD.trans hT) cV hδ).trans (le_of_eq ?_)
  rw [hu]; field_simp; ring

/-- A query and a table that meet the hypotheses. -/
example : ∃ r, FlLinearNd (rnd 53) [[0, 1, 3], [2, 5]] (table [3, 2] fun _ => 7) [1 / 3, 4] r ∧
    |r - linearNd [[0, 1, 3], [2, 5]] (table [3, 2] fun _ => 7) [1 / 3, 4]| ≤ 80 * 2 ^ 2 / 2 ^ 53 * 7 := by
  obtain ⟨r, hr⟩ := flLinearNd_exists (fl := rnd 53) [[0, 1, 3], [2, 5]] (table [3, 2] fun _ => 7) [1 / 3, 4]
  refine ⟨r, hr, C156_nd_error_partial (nearest_rnd (by norm_num)) [[0, 1, 3], [2, 5]] (by norm_num) ?_ _ _ ?_ 7 (by norm_num) ?_ r hr⟩
  · intro g hg
    simp only [List.mem_cons, List.not_mem_nil, or_false] at hg
    rcases hg with rfl | rfl <;> norm_num
  · exact .cons (by norm_num [at']) (.cons (by norm_num [at']) .nil)
  · intro v hv
    simp [table] at hv
    norm_num [hv]

end Verif.Interp
