import Verif.Special.MeijerModel
import Verif.Special.HypProps
import Verif.Special.GammaProps

/-!
# What `Tgamma` computes

Nothing here models the code.
-/

open Complex

namespace Verif.Special

theorem isPole_iff (x : ℂ) : isPole x = true ↔ ∃ n : ℕ, x = -n := by
  simp only [isPole, decide_eq_true_eq]
  constructor
  · rintro ⟨h1, h2⟩
    refine ⟨(-round x.re).toNat, ?_⟩
    have : (((-round x.re).toNat : ℤ) : ℂ) = ((-round x.re : ℤ) : ℂ) := by
      rw [Int.toNat_of_nonneg (by omega)]
    rw [show (((-round x.re).toNat : ℕ) : ℂ) = (((-round x.re).toNat : ℤ) : ℂ) by push_cast; rfl, this]
    push_cast; rw [h1, neg_neg]
  · rintro ⟨n, rfl⟩
    have : round ((-(n : ℂ)).re) = -(n : ℤ) := by
      rw [show (-(n : ℂ)).re = ((-(n : ℤ) : ℤ) : ℝ) by simp, round_intCast]
    rw [this]
    exact ⟨by push_cast; rfl, by omega⟩

/-- The value of the gamma function as a number. -/
noncomputable def gv (gam : ℂ → Option ℂ) (x : ℂ) : ℂ := (gam x).getD 0

theorem foldlM_mul (gam : ℂ → Option ℂ) (l : List ℂ) (h : ∀ x ∈ l, gam x ≠ none) (v : ℂ) :
    l.foldlM (fun v a => (gam a).map (v * ·)) v = some (v * (l.map (gv gam)).prod) := by
  induction l generalizing v with
  | nil => simp
  | cons x l ih =>
    obtain ⟨g, hg⟩ := Option.ne_none_iff_exists'.1 (h x (by simp))
    simp only [List.foldlM_cons, hg, Option.map_some, Option.bind_eq_bind, Option.bind_some]
    rw [ih (fun y hy => h y (by simp [hy]))]
    simp [gv, hg, mul_assoc]

theorem foldlM_div (gam : ℂ → Option ℂ) (l : List ℂ) (h : ∀ x ∈ l, gam x ≠ none) (v : ℂ) :
    l.foldlM (fun v a => (gam a).map (v / ·)) v = some (v / (l.map (gv gam)).prod) := by
  induction l generalizing v with
  | nil => simp
  | cons x l ih =>
    obtain ⟨g, hg⟩ := Option.ne_none_iff_exists'.1 (h x (by simp))
    simp only [List.foldlM_cons, hg, Option.map_some, Option.bind_eq_bind, Option.bind_some]
    rw [ih (fun y hy => h y (by simp [hy]))]
    simp [gv, hg, div_div]

theorem foldlM_none (gam : ℂ → Option ℂ) (op : ℂ → ℂ → ℂ) (l : List ℂ) {x : ℂ} (hx : x ∈ l)
    (h : gam x = none) (v : ℂ) : l.foldlM (fun v a => (gam a).map (op v)) v = none := by
  induction l generalizing v with
  | nil => simp at hx
  | cons y l ih =>
    simp only [List.foldlM_cons, Option.bind_eq_bind]
    rcases List.mem_cons.1 hx with rfl | hx'
    · simp [h]
    · cases gam y with
      | none => simp
      | some g => simpa using ih hx' _

theorem foldl_pow (l : List (ℂ × ℂ)) (v : ℂ) :
    l.foldl (fun v p => v * p.1 ^ p.2) v = v * (l.map fun p => p.1 ^ p.2).prod := by
  induction l generalizing v with
  | nil => simp
  | cons x l ih => rw [List.foldl_cons, ih, List.map_cons, List.prod_cons, mul_assoc]

/-- The value of a term whose gamma functions and series are finite. -/
theorem value_eq {gam : ℂ → Option ℂ} {hyp : List ℂ → List ℂ → ℂ → Option ℂ} {t : CombTerm} {v : ℂ}
    (hv : hyp t.a t.b t.z = some v) (ha : ∀ x ∈ t.alpha, gam x ≠ none) (hb : ∀ x ∈ t.beta, gam x ≠ none) :
    t.value gam hyp = some (v * (t.alpha.map (gv gam)).prod / (t.beta.map (gv gam)).prod *
      ((t.w.zip t.c).map fun p => p.1 ^ p.2).prod) := by
  rw [CombTerm.value, hv]
  simp only [Option.bind_eq_bind, Option.bind_some]
  rw [foldlM_mul _ _ ha]
  simp only [Option.bind_some]
  rw [foldlM_div _ _ hb]
  simp only [Option.bind_some, foldl_pow]
  rfl

/-- A term that is finite has finite parts. -/
theorem value_some {gam : ℂ → Option ℂ} {hyp : List ℂ → List ℂ → ℂ → Option ℂ} {t : CombTerm} {u : ℂ}
    (h : t.value gam hyp = some u) :
    (∃ v, hyp t.a t.b t.z = some v) ∧ (∀ x ∈ t.alpha, gam x ≠ none) ∧ (∀ x ∈ t.beta, gam x ≠ none) := by
  rw [CombTerm.value] at h
  simp only [Option.bind_eq_bind] at h
  obtain ⟨v, hv, h⟩ := Option.bind_eq_some_iff.1 h
  obtain ⟨v1, hv1, h⟩ := Option.bind_eq_some_iff.1 h
  obtain ⟨v2, hv2, h⟩ := Option.bind_eq_some_iff.1 h
  refine ⟨⟨v, hv⟩, fun x hx e => ?_, fun x hx e => ?_⟩
  · rw [foldlM_none gam (· * ·) _ hx e] at hv1; simp at hv1
  · rw [foldlM_none gam (· / ·) _ hx e] at hv2; simp at hv2

/-! ### The terms of `Tgamma` -/

/-- Term `k` of `Tgamma` for arguments `0, …, b 0, b 1, …` -/
theorem tgammaArgs_a {m : ℕ} (a : ℂ) {j : ℕ} (hj : j < m - 1) : (tgammaArgs m a).getD j 0 = 0 := by
  simp [tgammaArgs, List.getD_eq_getElem?_getD, List.getElem?_append, hj, List.getElem?_replicate]

theorem tgammaArgs_b0 (m : ℕ) (a : ℂ) : (tgammaArgs m a).getD (m - 1 + 0) 0 = a - 1 := by
  simp [tgammaArgs, List.getD_eq_getElem?_getD, List.getElem?_append]

theorem tgammaArgs_b {m : ℕ} (a : ℂ) {j : ℕ} (h0 : j ≠ 0) (hj : j < m) :
    (tgammaArgs m a).getD (m - 1 + j) 0 = -1 := by
  obtain ⟨i, rfl⟩ := Nat.exists_eq_succ_of_ne_zero h0
  simp [tgammaArgs, List.getD_eq_getElem?_getD, List.getElem?_append, List.getElem?_replicate,
    show i < m - 1 by omega]

/-- The gamma functions in the denominator of `Tgamma` never have more poles than those in the
numerator: no term is discarded. -/
theorem tgamma_no_discard {eps : ℝ} {m : ℕ} (hm : 1 ≤ m) (a z : ℂ) {t : CombTerm}
    (ht : t ∈ meijergSeries1 m 0 (m - 1) m z 1 (tgammaArgs m a)) : t.discard eps = false := by
  rw [meijergSeries1] at ht
  obtain ⟨k, hk, rfl⟩ := List.mem_map.1 ht
  have hk := List.mem_range.1 hk
  rw [CombTerm.discard, Bool.and_eq_false_iff]
  left
  rw [decide_eq_false_iff_not, not_lt]
  refine le_trans ?_ (Nat.le_add_right _ _)
  simp only [CombTerm.poles, Nat.sub_self, List.range'_zero, List.map_nil, List.append_nil,
    Nat.sub_zero, List.range_zero]
  by_cases h0 : k = 0
  · subst h0
    have hb : (List.range' 0 (m - 1)).map (fun j => (tgammaArgs m a).getD j 0 -
        (tgammaArgs m a).getD (m - 1 + 0) 0) = List.replicate (m - 1) (1 - a) := by
      rw [List.eq_replicate_iff]
      refine ⟨by simp, fun x hx => ?_⟩
      obtain ⟨j, hj, rfl⟩ := List.mem_map.1 hx
      have hj := List.mem_range'_1.1 hj
      rw [tgammaArgs_a a (by omega), tgammaArgs_b0]; ring
    have hal : ((List.range m).filter (· ≠ 0)).map (fun j => (tgammaArgs m a).getD (m - 1 + j) 0 -
        (tgammaArgs m a).getD (m - 1 + 0) 0) = List.replicate (m - 1) (-a) := by
      rw [List.eq_replicate_iff]
      constructor
      · rw [List.length_map]
        obtain ⟨n, rfl⟩ : ∃ n, m = n + 1 := ⟨m - 1, by omega⟩
        rw [List.range_succ_eq_map, List.filter_cons_of_neg (by simp), List.filter_eq_self.2]
        · simp
        · intro x hx
          obtain ⟨y, -, rfl⟩ := List.mem_map.1 hx
          simp
      · intro x hx
        obtain ⟨j, hj, rfl⟩ := List.mem_map.1 hx
        have hj := List.mem_filter.1 hj
        rw [tgammaArgs_b a (by simpa using hj.2) (List.mem_range.1 hj.1), tgammaArgs_b0]; ring
    rw [hb, hal, List.countP_replicate, List.countP_replicate]
    by_cases hp : isPole (1 - a) = true
    · have : isPole (-a) = true := by
        rw [isPole_iff] at hp ⊢
        obtain ⟨n, hn⟩ := hp
        exact ⟨n + 1, by push_cast; linear_combination hn⟩
      simp [hp, this]
    · simp [hp]
  · have : List.countP isPole ((List.range' 0 (m - 1)).map fun j => (tgammaArgs m a).getD j 0 -
        (tgammaArgs m a).getD (m - 1 + k) 0) = 0 := by
      rw [List.countP_eq_zero]
      intro x hx
      obtain ⟨j, hj, rfl⟩ := List.mem_map.1 hx
      have hj := List.mem_range'_1.1 hj
      rw [tgammaArgs_a a (by omega), tgammaArgs_b a h0 hk, isPole_iff]
      rintro ⟨n, hn⟩
      have := congrArg re hn
      simp at this
      have : (0 : ℝ) ≤ n := by positivity
      linarith
    rw [this]; exact Nat.zero_le _

/-- The sum of the values of all terms. -/
noncomputable def combSum (gam : ℂ → Option ℂ) (hyp : List ℂ → List ℂ → ℂ → Option ℂ)
    (ts : List CombTerm) : Option ℂ :=
  ts.foldlM (fun ret t => (t.value gam hyp).map (ret + ·)) 0

theorem foldlM_zip_false {gam : ℂ → Option ℂ} {hyp : List ℂ → List ℂ → ℂ → Option ℂ} {n : ℕ}
    (ts : List CombTerm) (hl : ts.length = n) (s : ℂ) :
    ((List.replicate n false).zip ts).foldlM (fun ret p => if p.1 then some ret
      else (p.2.value gam hyp).map (ret + ·)) s =
    ts.foldlM (fun ret t => (t.value gam hyp).map (ret + ·)) s := by
  induction ts generalizing n s with
  | nil => subst hl; simp
  | cons t ts ih =>
    subst hl
    simp only [List.length_cons, List.replicate_succ, List.zip_cons_cons, List.foldlM_cons]
    simp only [Bool.false_eq_true, if_false]
    congr 1
    funext r
    exact ih rfl r

theorem meijergSeries1_length (m n p q : ℕ) (z r : ℂ) (args : List ℂ) :
    (meijergSeries1 m n p q z r args).length = m := by simp [meijergSeries1]

/-- `Tgamma` adds all its terms, for the given or for the perturbed parameters. -/
theorem TgammaWith_eq {gam : ℂ → Option ℂ} {hyp : List ℂ → List ℂ → ℂ → Option ℂ} {eps h : ℝ} {m : ℕ}
    (hm : 1 ≤ m) (a z : ℂ) :
    TgammaWith gam hyp eps h m a z = .ok (combSum gam hyp (meijergSeries1 m 0 (m - 1) m z 1
      (if (meijergSeries1 m 0 (m - 1) m z 1 (tgammaArgs m a)).any (·.perturb eps)
        then perturbFrom 0 h (tgammaArgs m a) else tgammaArgs m a))) := by
  rw [TgammaWith, if_neg (by omega), meijerg, hypercomb]
  have hd : (meijergSeries1 m 0 (m - 1) m z 1 (tgammaArgs m a)).map (·.discard eps) =
      List.replicate m false := by
    rw [List.eq_replicate_iff]
    refine ⟨by simp [meijergSeries1_length], fun x hx => ?_⟩
    obtain ⟨t, ht, rfl⟩ := List.mem_map.1 hx
    exact tgamma_no_discard hm a z ht
  simp only [hd]
  rw [foldlM_zip_false _ (by split <;> simp [meijergSeries1_length])]
  split <;> rfl

/-- For `m ≥ 3` the parameters are always perturbed. -/
theorem tgamma_perturbed {eps : ℝ} {m : ℕ} (hm : 3 ≤ m) (a z : ℂ) :
    (meijergSeries1 m 0 (m - 1) m z 1 (tgammaArgs m a)).any (·.perturb eps) = true := by
  rw [List.any_eq_true]
  rw [show meijergSeries1 m 0 (m - 1) m z 1 (tgammaArgs m a) = _ from rfl]
  refine ⟨_, List.mem_map.2 ⟨1, List.mem_range.2 (by omega), rfl⟩, ?_⟩
  rw [CombTerm.perturb, Bool.or_eq_true]
  right
  rw [Bool.and_eq_true]
  constructor
  · rw [tgamma_no_discard (m := m) (a := a) (z := z) (by omega)
      (List.mem_map.2 ⟨1, List.mem_range.2 (by omega), rfl⟩)]; rfl
  · rw [decide_eq_true_eq]
    intro e
    have h1 := congrArg Prod.fst e
    simp only [CombTerm.poles, List.range_zero, List.map_nil, List.append_nil] at h1
    rw [List.countP_eq_zero] at h1
    refine h1 _ (List.mem_map.2 ⟨2, List.mem_filter.2 ⟨List.mem_range.2 (by omega), by simp⟩, rfl⟩) ?_
    rw [isPole_iff]
    exact ⟨0, by rw [tgammaArgs_b a (by omega) (by omega), tgammaArgs_b a (by omega) (by omega)]; simp⟩

end Verif.Special
