import Verif.Interp.SplineProps

/-! # C76, C77: weights, reproduction of affine functions, N-dimensional splines -/

namespace Verif.Interp

/-! ### C76: affine functions are reproduced -/

theorem cubicAt_rep (a b : ℝ) (m i : ℕ) (hi : i < m) :
    cubicAt ((List.range m).flatMap fun _ => [0, 0, b, a]) i = ⟨0, 0, b, a⟩ := by
  have h : ∀ r < 4, at' ((List.range m).flatMap fun _ => [0, 0, b, a]) (4 * i + r) = at' [0, 0, b, a] r := by
    intro r hr
    have := at'_flatMap 4 m (fun _ => [0, 0, b, a]) (fun _ => rfl) i r hi hr
    rw [Nat.mul_comm] at this
    exact this
  unfold cubicAt
  rw [show 4 * i = 4 * i + 0 from rfl, h 0 (by omega), Nat.add_zero, h 1 (by omega), h 2 (by omega), h 3 (by omega)]
  rfl

/-- **C76** the spline through samples of an affine function is that function, at every query (also outside the
knots). -/
theorem C76_affine (x0 c : List ℝ) (h2 : 2 ≤ x0.length) (hs : x0.Pairwise (· < ·)) (a b : ℝ)
    (hsol : Solves x0 3 (x0.map fun t => a + b * t) c) (x : ℝ) : evaluate x0 3 c x = a + b * x := by
  have hl : ((List.range (x0.length - 1)).flatMap fun _ => [0, 0, b, a]).length = nvars x0 3 := by
    simp [List.length_flatMap, nvars, nvarsp, npolys]
    omega
  have hy : (x0.map fun t => a + b * t).length = x0.length := by simp
  have hat : ∀ i, i < x0.length → at' (x0.map fun t => a + b * t) i = a + b * at' x0 i := by
    intro i hi
    rw [at'_eq _ _ (by simpa using hi), at'_eq _ _ hi]; simp
  have h' : Solves x0 3 (x0.map fun t => a + b * t) ((List.range (x0.length - 1)).flatMap fun _ => [0, 0, b, a]) := by
    rw [solves_iff _ _ _ h2 hy]
    refine ⟨hl, ?_, ?_, ?_, ?_, ?_, ?_⟩
    · intro i hi
      rw [cubicAt_rep a b _ i (by omega), hat i (by omega)]; simp [Cubic.val, add_comm]
    · intro i hi
      rw [cubicAt_rep a b _ i (by omega), hat (i + 1) (by omega)]; simp [Cubic.val, add_comm]
    · intro i hi
      rw [cubicAt_rep a b _ i (by omega), cubicAt_rep a b _ (i + 1) (by omega)]
    · intro i hi
      rw [cubicAt_rep a b _ i (by omega), cubicAt_rep a b _ (i + 1) (by omega)]
    · rw [cubicAt_rep a b _ 0 (by omega)]; simp [Cubic.d2]
    · rw [cubicAt_rep a b _ _ (by omega)]; simp [Cubic.d2]
  obtain rfl := (C56_exists x0 _ h2 hs hy).unique hsol h'
  rw [evaluate_eq x0 _ h2 hl]
  unfold pw
  have := pick_lt x0 h2 x
  show (cubicAt _ _).val x = _
  rw [cubicAt_rep a b _ _ (by omega)]
  simp [Cubic.val]
  ring

/-! ### Linear combinations -/

theorem dot_add (r a b : List ℝ) (h : a.length = b.length) : dot r (List.zipWith (· + ·) a b) = dot r a + dot r b := by
  induction r generalizing a b with
  | nil => simp
  | cons x r ih =>
    cases a with
    | nil => cases b <;> simp at h; simp
    | cons y a =>
      cases b with
      | nil => simp at h
      | cons z b =>
        rw [List.zipWith_cons_cons, dot_cons, dot_cons, dot_cons, ih a b (by simpa using h)]; ring

theorem dot_smul (r a : List ℝ) (k : ℝ) : dot r (a.map (k * ·)) = k * dot r a := by
  induction r generalizing a with
  | nil => simp
  | cons x r ih =>
    cases a with
    | nil => simp
    | cons y a => rw [List.map_cons, dot_cons, dot_cons, ih]; ring

/-- `Σ ys_j cols_j`, of length `n`. -/
def lincomb (n : ℕ) : List ℝ → List (List ℝ) → List ℝ
  | y :: ys, c :: cs => List.zipWith (· + ·) (c.map (y * ·)) (lincomb n ys cs)
  | _, _ => List.replicate n 0

theorem length_lincomb (n : ℕ) (ys : List ℝ) (cs : List (List ℝ)) (h : ∀ c ∈ cs, c.length = n) :
    (lincomb n ys cs).length = n := by
  induction ys generalizing cs with
  | nil => simp [lincomb]
  | cons y ys ih =>
    cases cs with
    | nil => simp [lincomb]
    | cons c cs =>
      simp [lincomb, h c List.mem_cons_self, ih cs fun d hd => h d (List.mem_cons_of_mem _ hd)]

theorem dot_comm' (a b : List ℝ) : dot a b = dot b a := by
  induction a generalizing b with
  | nil => simp
  | cons x a ih =>
    cases b with
    | nil => simp
    | cons y b => rw [dot_cons, dot_cons, ih]; ring

theorem dot_lincomb (n : ℕ) (r ys : List ℝ) (cs : List (List ℝ)) (h : ∀ c ∈ cs, c.length = n) :
    dot r (lincomb n ys cs) = dot ys (cs.map (dot r ·)) := by
  induction ys generalizing cs with
  | nil => simp only [lincomb, dot_nil_left]; rw [dot_comm', dot_zeros]
  | cons y ys ih =>
    cases cs with
    | nil => simp only [lincomb, List.map_nil, dot_nil_right]; rw [dot_comm', dot_zeros]
    | cons c cs =>
      have h' := fun d hd => h d (List.mem_cons_of_mem _ hd)
      rw [lincomb, dot_add _ _ _ (by simp [h c List.mem_cons_self, length_lincomb n ys cs h']), dot_smul, ih cs h',
        List.map_cons, dot_cons]

theorem dot_indicator (ys : List ℝ) (i : ℕ) (hi : i < ys.length) :
    dot ys ((List.range ys.length).map fun j => if i = j then 1 else 0) = at' ys i := by
  induction ys generalizing i with
  | nil => simp at hi
  | cons y ys ih =>
    rw [List.length_cons, List.range_succ_eq_map, List.map_cons, List.map_map, dot_cons]
    cases i with
    | zero =>
      have : (List.map ((fun j => if 0 = j then (1 : ℝ) else 0) ∘ Nat.succ) (List.range ys.length)) =
          List.replicate ys.length 0 := by
        rw [List.eq_replicate_iff]
        refine ⟨by simp, fun b hb => ?_⟩
        obtain ⟨j, _, rfl⟩ := List.mem_map.mp hb
        simp
      rw [this, dot_comm', dot_zeros]
      simp
    | succ i =>
      have := ih i (by simpa using hi)
      rw [at'_cons_succ, ← this]
      simp [Function.comp_def]

/-- Solving through the inverse: the solution is the combination of its columns. -/
theorem solve_eq_lincomb (x0 y0 c : List ℝ) (h2 : 2 ≤ x0.length) (hs : x0.Pairwise (· < ·)) (hy : y0.length = x0.length)
    (hsol : Solves x0 3 y0 c) (inv : List (List ℝ)) (hinv : IsInverse x0 3 inv) :
    c = lincomb (nvars x0 3) (Y0 x0 3 y0) inv := by
  have hYlen : (Y0 x0 3 y0).length = nvars x0 3 := by
    simp [Y0, repeat2_eq y0 (by omega), hy, nvars, nvarsp, npolys]; omega
  have hcols : ∀ d ∈ inv, d.length = nvars x0 3 := by
    intro d hd
    obtain ⟨j, hj, rfl⟩ := List.getElem_of_mem hd
    exact (hinv.2 j hj).1
  refine (C56_exists x0 y0 h2 hs hy).unique hsol ⟨length_lincomb _ _ _ hcols, ?_⟩
  have hX : (X0 x0 3).length = nvars x0 3 := (C57_square_iff x0 h2 3).mpr (.inr rfl)
  apply List.ext_getElem
  · simp [hX, hYlen]
  · intro i hi1 hi2
    rw [List.getElem_map, dot_lincomb _ _ _ _ hcols]
    have e : inv.map (dot (X0 x0 3)[i] ·) = (List.range (Y0 x0 3 y0).length).map fun j => if i = j then 1 else 0 := by
      apply List.ext_getElem
      · simp [hinv.1, hYlen]
      · intro j hj1 hj2
        have hj : j < inv.length := by simpa using hj1
        have := congrArg (fun l => l[i]?) (hinv.2 j hj).2
        simp only [List.getElem?_map] at this
        rw [List.getElem?_eq_getElem (by omega), List.getElem?_eq_getElem (by simp; omega)] at this
        simpa using this
    rw [e, dot_indicator _ _ hi2, at'_eq]

/-! ### The pairing of columns -/

/-- Pairwise sums of numbers. -/
def chunkSum : List ℝ → List ℝ
  | a :: b :: l => (a + b) :: chunkSum l
  | _ => []

theorem dot_repeat (l g : List ℝ) (hl : l ≠ []) (hg : g.length + 1 = 2 * l.length) :
    dot (l.flatMap fun y => [y, y]).dropLast g = dot (chunkSum g.dropLast ++ [g.getLastD 0]) l := by
  induction l generalizing g with
  | nil => simp at hl
  | cons b l ih =>
    by_cases hl' : l = []
    · subst hl'
      obtain ⟨x, rfl⟩ : ∃ x, g = [x] := List.length_eq_one_iff.mp (by simpa using hg)
      simp [chunkSum, dot]
      ring
    · match g with
      | [] => exact absurd hg (by simp; omega)
      | [x] =>
        have : 0 < l.length := List.length_pos_of_ne_nil hl'
        exact absurd hg (by simp; omega)
      | x :: y :: g' =>
        have hlen : l.length ≠ 0 := by simpa using hl'
        have hg' : g' ≠ [] := by rintro rfl; simp at hg; omega
        have := ih g' hl' (by simp at hg; omega)
        simp only [List.flatMap_cons, List.cons_append, List.nil_append]
        rw [List.dropLast_cons_of_ne_nil (by simp), List.dropLast_cons_of_ne_nil (by intro h; cases l with | nil => exact absurd rfl hl' | cons a l => simp at h),
          dot_cons, dot_cons, this, List.dropLast_cons_of_ne_nil (by simp), List.dropLast_cons_of_ne_nil hg', chunkSum,
          List.cons_append, dot_cons]
        have : (x :: y :: g').getLastD 0 = g'.getLastD 0 := by
          cases g' with
          | nil => exact absurd rfl hg'
          | cons z g' => simp [List.getLastD_cons]
        rw [this]
        ring

theorem map_chunkAdd (r : List ℝ) (n : ℕ) (cols : List (List ℝ)) (h : ∀ c ∈ cols, c.length = n) :
    (chunkAdd cols).map (dot r ·) = chunkSum (cols.map (dot r ·)) := by
  match cols with
  | [] => rfl
  | [_] => rfl
  | a :: b :: l =>
    simp only [chunkAdd, List.map_cons, chunkSum]
    rw [dot_add _ _ _ (by rw [h a (by simp), h b (by simp)]), map_chunkAdd r n l fun c hc => h c (by simp [hc])]

/-- The evaluation at `x` is a fixed row. -/
theorem polyval_row (x0 c : List ℝ) (h2 : 2 ≤ x0.length) (hc : c.length = nvars x0 3) (x : ℝ) :
    polyval (block 3 c (pickPoly x0 x)) x =
      dot (padRoll (powRow 3 x) (nvars x0 3) (4 * pickPoly x0 x : ℕ)) c := by
  have := pick_lt x0 h2 x
  have hn : nvars x0 3 = 4 * (x0.length - 1) := rfl
  rw [polyval_block _ _ (by omega), dot_padRoll _ _ _ _ (by simp; omega), dot_pow _ _ (by omega)]

/-- Every row of the tensor with columns `Acols`, and its action on data. -/
theorem acols_row (x0 : List ℝ) (h2 : 2 ≤ x0.length) (inv : List (List ℝ)) (hinv : IsInverse x0 3 inv) :
    (Acols x0 inv).length = x0.length ∧ (∀ d ∈ Acols x0 inv, d.length = nvars x0 3) ∧
      ∀ r y0 : List ℝ, y0.length = x0.length →
        dot ((Acols x0 inv).map (dot r ·)) y0 = dot (Y0 x0 3 y0) (inv.map (dot r ·)) := by
  have hn : nvars x0 3 = 4 * (x0.length - 1) := rfl
  have hcols : ∀ d ∈ inv, d.length = nvars x0 3 := by
    intro d hd
    obtain ⟨j, hj, rfl⟩ := List.getElem_of_mem hd
    exact (hinv.2 j hj).1
  match htake : inv.take (2 * npolys x0) with
  | [] =>
    have := congrArg List.length htake
    rw [List.length_take, hinv.1, hn] at this
    unfold npolys at this
    simp at this; omega
  | f :: g =>
    have hglen : g.length + 1 = 2 * (x0.length - 1) := by
      have := congrArg List.length htake
      rw [List.length_take, hinv.1, hn, List.length_cons] at this
      unfold npolys at this; omega
    have hmem : ∀ d ∈ f :: g, d.length = nvars x0 3 := fun d hd => hcols d (List.mem_of_mem_take (htake ▸ hd))
    have hgne : g ≠ [] := by rintro rfl; simp at hglen; omega
    have hlast : g.getLastD [] ∈ g := by
      cases g with
      | nil => simp at hgne
      | cons a g => rw [List.getLastD_cons]; exact List.mem_of_getLast? (by simp [List.getLast?_cons])
    have hAc : Acols x0 inv = f :: (chunkAdd g.dropLast ++ [g.getLastD []]) := by
      unfold Acols; rw [htake]
    have hch : ∀ l : List (List ℝ), (∀ d ∈ l, d.length = nvars x0 3) → ∀ d ∈ chunkAdd l, d.length = nvars x0 3 := by
      intro l
      match l with
      | [] => simp [chunkAdd]
      | [_] => simp [chunkAdd]
      | a :: b :: l =>
        intro hl d hd
        have ih : ∀ d ∈ chunkAdd l, d.length = nvars x0 3 := by
          clear hd
          induction l using chunkAdd.induct with
          | case1 a' b' l ih =>
            intro d hd
            simp only [chunkAdd, List.mem_cons] at hd
            rcases hd with rfl | hd
            · simp [hl a' (by simp), hl b' (by simp)]
            · refine ih (fun d hd => hl d ?_) d hd
              simp only [List.mem_cons] at hd ⊢
              tauto
          | case2 l h => intro d hd; rw [chunkAdd.eq_2 l h] at hd; simp at hd
        simp only [chunkAdd, List.mem_cons] at hd
        rcases hd with rfl | hd
        · simp [hl a (by simp), hl b (by simp)]
        · exact ih d hd
    have hall : ∀ d ∈ f :: (chunkAdd g.dropLast ++ [g.getLastD []]), d.length = nvars x0 3 := by
      intro d hd
      simp only [List.mem_cons, List.mem_append, List.not_mem_nil, or_false] at hd
      rcases hd with rfl | hd | rfl
      · exact hmem _ List.mem_cons_self
      · exact hch _ (fun d hd => hmem d (List.mem_cons_of_mem _ (List.mem_of_mem_dropLast hd))) d hd
      · exact hmem _ (List.mem_cons_of_mem _ hlast)
    have hchlen : ∀ l : List ℝ, (chunkSum l).length = l.length / 2 := by
      intro l
      induction l using chunkSum.induct with
      | case1 a b l ih => simp [chunkSum, ih]; omega
      | case2 l h =>
        rw [chunkSum.eq_2 l h]
        match l with
        | [] => rfl
        | [_] => simp
        | a :: b :: l => exact absurd rfl (h a b l)
    have hW : ∀ r : List ℝ, (Acols x0 inv).map (dot r ·) =
        dot r f :: (chunkSum (g.map (dot r ·)).dropLast ++ [(g.map (dot r ·)).getLastD 0]) := by
      intro r
      have hgl : dot r (g.getLastD []) = (g.map (dot r ·)).getLastD 0 := by
        rw [List.getLastD_eq_getLast?, List.getLastD_eq_getLast?, List.getLast?_map]
        cases h : g.getLast? with
        | none => simp
        | some a => rfl
      rw [hAc, List.map_cons, List.map_append, map_chunkAdd r (nvars x0 3) _
        (fun d hd => hmem d (List.mem_cons_of_mem _ (List.mem_of_mem_dropLast hd))), List.map_dropLast, List.map_cons,
        List.map_nil, hgl]
    refine ⟨?_, hAc ▸ hall, fun r y0 hy => ?_⟩
    · have := congrArg List.length (hW [])
      rw [List.length_map] at this
      rw [this]
      simp [hchlen]; omega
    · -- only the first 2 * npolys columns matter
      have hY : dot (Y0 x0 3 y0) (inv.map (dot r ·)) = dot (repeat2 y0) ((inv.take (2 * npolys x0)).map (dot r ·)) := by
        have hlen : (repeat2 y0).length = 2 * npolys x0 := by
          rw [repeat2_eq y0 (by omega)]; simp [npolys, hy]; omega
        have e : inv.map (dot r ·) = (inv.take (2 * npolys x0)).map (dot r ·) ++ (inv.drop (2 * npolys x0)).map (dot r ·) := by
          rw [← List.map_append, List.take_append_drop]
        have hl3 : ((inv.take (2 * npolys x0)).map (dot r ·)).length = (repeat2 y0).length := by
          rw [List.length_map, List.length_take, hlen, hinv.1, hn]; unfold npolys; omega
        rw [Y0, dot_append, dot_zeros, add_zero, e, dot_comm', dot_append, hl3, List.drop_length, dot_nil_right, add_zero, dot_comm']
      rw [hY, htake, hW]
      cases y0 with
      | nil => simp at hy; omega
      | cons a l =>
        have hl : l ≠ [] := by rintro rfl; simp at hy; omega
        have hrep : repeat2 (a :: l) = a :: (l.flatMap fun y => [y, y]).dropLast := by
          simp only [repeat2, List.flatMap_cons, List.cons_append, List.nil_append, List.tail_cons]
          rw [List.dropLast_cons_of_ne_nil (by intro h; cases l with | nil => exact absurd rfl hl | cons a l => simp at h)]
        rw [hrep, List.map_cons, dot_cons, dot_cons, dot_repeat l _ hl (by simp at hy ⊢; omega)]
        ring

/-- **C76** the weights applied to the data give the evaluated spline: the two ways of evaluating agree, for all data
and queries. -/
theorem C76_weights (x0 y0 c : List ℝ) (h2 : 2 ≤ x0.length) (hs : x0.Pairwise (· < ·)) (hy : y0.length = x0.length)
    (hsol : Solves x0 3 y0 c) (inv : List (List ℝ)) (hinv : IsInverse x0 3 inv) (x : ℝ) :
    (weights x0 3 inv x).length = x0.length ∧ dot (weights x0 3 inv x) y0 = evaluate x0 3 c x := by
  have hcols : ∀ d ∈ inv, d.length = nvars x0 3 := by
    intro d hd
    obtain ⟨j, hj, rfl⟩ := List.getElem_of_mem hd
    exact (hinv.2 j hj).1
  obtain ⟨hl, hall, hdot⟩ := acols_row x0 h2 inv hinv
  set r := padRoll (powRow 3 x) (nvars x0 3) (4 * pickPoly x0 x : ℕ) with hr
  have hA : weights x0 3 inv x = (Acols x0 inv).map (dot r ·) :=
    List.map_congr_left fun d hd => polyval_row x0 d h2 (hall d hd) x
  refine ⟨by rw [hA, List.length_map, hl], ?_⟩
  rw [hA, hdot r y0 hy]
  unfold evaluate
  rw [polyval_row x0 c h2 hsol.1, ← hr, solve_eq_lincomb x0 y0 c h2 hs hy hsol inv hinv, dot_lincomb _ _ _ _ hcols]

/-- **C76** column `j` of the operator `A` is the vector of coefficients of the spline through the data 1 at knot `j` and 0 at
the others. -/
theorem C76_columns (x0 c : List ℝ) (h2 : 2 ≤ x0.length) (hs : x0.Pairwise (· < ·)) (inv : List (List ℝ))
    (hinv : IsInverse x0 3 inv) (j : ℕ) (hj : j < x0.length)
    (hsol : Solves x0 3 ((List.range x0.length).map fun i => if j = i then 1 else 0) c) : (Acols x0 inv)[j]? = some c := by
  have hcols : ∀ d ∈ inv, d.length = nvars x0 3 := by
    intro d hd
    obtain ⟨j, hj, rfl⟩ := List.getElem_of_mem hd
    exact (hinv.2 j hj).1
  obtain ⟨hl, hall, hdot⟩ := acols_row x0 h2 inv hinv
  rw [List.getElem?_eq_getElem (by omega), Option.some_inj]
  have hd := hall _ (List.getElem_mem (by omega : j < (Acols x0 inv).length))
  apply List.ext_getElem (by rw [hd, hsol.1])
  intro k hk1 hk2
  have key : ∀ d : List ℝ, d.length = nvars x0 3 →
      dot ((List.range (nvars x0 3)).map fun i => if k = i then (1 : ℝ) else 0) d = at' d k := by
    intro d hd'
    rw [dot_comm', ← hd']
    exact dot_indicator d k (by omega)
  have h := hdot ((List.range (nvars x0 3)).map fun i => if k = i then (1 : ℝ) else 0)
    ((List.range x0.length).map fun i => if j = i then 1 else 0) (by simp)
  rw [← dot_lincomb _ _ _ _ hcols, ← solve_eq_lincomb x0 _ c h2 hs (by simp) hsol inv hinv, key c hsol.1] at h
  have hm : ((Acols x0 inv).map (dot ((List.range (nvars x0 3)).map fun i => if k = i then (1 : ℝ) else 0) ·)).length = x0.length := by
    rw [List.length_map, hl]
  rw [← hm, dot_indicator _ j (by omega), at'_eq _ _ (by omega), List.getElem_map, key _ hd, at'_eq _ _ hk1, at'_eq _ _ hk2] at h
  exact h

/-- Solutions and inverses exist. -/
theorem exists_inverse (x0 : List ℝ) (h2 : 2 ≤ x0.length) (hs : x0.Pairwise (· < ·)) : ∃ inv, IsInverse x0 3 inv := by
  have h : ∀ j : ℕ, ∃ c : List ℝ, c.length = nvars x0 3 ∧
      (X0 x0 3).map (dot · c) = (List.range (nvars x0 3)).map fun i => if i = j then 1 else 0 :=
    fun j => (C56_solvable x0 h2 hs _ (by simp)).exists
  choose f hf using h
  exact ⟨(List.range (nvars x0 3)).map f, by simp, fun j hj => by simpa using hf j⟩

/-- **C76** the weights sum to 1 and reproduce the query, at every query. -/
theorem C76_weights_sum (x0 : List ℝ) (h2 : 2 ≤ x0.length) (hs : x0.Pairwise (· < ·)) (inv : List (List ℝ))
    (hinv : IsInverse x0 3 inv) (a b x : ℝ) :
    dot (weights x0 3 inv x) (x0.map fun t => a + b * t) = a + b * x ∧ (weights x0 3 inv x).sum = 1 := by
  have key : ∀ a b : ℝ, dot (weights x0 3 inv x) (x0.map fun t => a + b * t) = a + b * x := by
    intro a b
    obtain ⟨c, hc⟩ := (C56_exists x0 (x0.map fun t => a + b * t) h2 hs (by simp)).exists
    rw [(C76_weights x0 _ c h2 hs (by simp) hc inv hinv x).2, C76_affine x0 c h2 hs a b hc]
  refine ⟨key a b, ?_⟩
  have h1 := key 1 0
  have hlen : (weights x0 3 inv x).length = x0.length := by
    obtain ⟨c, hc⟩ := (C56_exists x0 x0 h2 hs rfl).exists
    exact (C76_weights x0 x0 c h2 hs rfl hc inv hinv x).1
  have hones : ∀ w l : List ℝ, w.length = l.length → dot w (l.map fun t => 1 + 0 * t) = w.sum := by
    intro w
    induction w with
    | nil => simp
    | cons v w ih =>
      intro l hl
      cases l with
      | nil => simp at hl
      | cons t l =>
        rw [List.map_cons, dot_cons, ih l (by simpa using hl), List.sum_cons]
        ring
  rw [hones _ _ hlen] at h1
  linarith

/-- **C76** at a knot the weights pick out the value at that knot. -/
theorem C76_weights_knot (x0 y0 : List ℝ) (h2 : 2 ≤ x0.length) (hs : x0.Pairwise (· < ·)) (hy : y0.length = x0.length)
    (inv : List (List ℝ)) (hinv : IsInverse x0 3 inv) (i : ℕ) (hi : i < x0.length) :
    dot (weights x0 3 inv (at' x0 i)) y0 = at' y0 i := by
  obtain ⟨c, hc⟩ := (C56_exists x0 y0 h2 hs hy).exists
  rw [(C76_weights x0 y0 c h2 hs hy hc inv hinv _).2]
  exact (C56_spline x0 y0 c h2 hs hy hc).1 i hi

/-! ### C77: N-dimensional splines -/

theorem sum_eq_dot (w : List ℝ) (G : ℕ → ℝ) :
    ((List.range w.length).map fun i => at' w i * G i).sum = dot w ((List.range w.length).map G) := by
  induction w generalizing G with
  | nil => simp
  | cons a w ih =>
    have := ih fun i => G (i + 1)
    rw [List.length_cons, List.range_succ_eq_map, List.map_cons, List.map_cons, List.sum_cons, dot_cons, List.map_map,
      List.map_map]
    simp only [Function.comp_def, Nat.succ_eq_add_one, at'_cons_zero, at'_cons_succ]
    rw [this]

/-- Valid knots and inverses in every dimension. -/
def Knots (x0s : List (List ℝ)) (invs : List (List (List ℝ))) : Prop :=
  List.Forall₂ (fun x0 inv => 2 ≤ x0.length ∧ x0.Pairwise (· < ·) ∧ IsInverse x0 3 inv) x0s invs

/-- The weights in each dimension. -/
noncomputable def weightsNd : List (List ℝ) → List (List (List ℝ)) → List ℝ → List (List ℝ)
  | x0 :: x0s, inv :: invs, x :: xs => weights x0 3 inv x :: weightsNd x0s invs xs
  | _, _, _ => []

theorem weights_length (x0 : List ℝ) (h2 : 2 ≤ x0.length) (hs : x0.Pairwise (· < ·)) (inv : List (List ℝ))
    (hinv : IsInverse x0 3 inv) (x : ℝ) : (weights x0 3 inv x).length = x0.length := by
  obtain ⟨c, hc⟩ := (C56_exists x0 x0 h2 hs rfl).exists
  exact (C76_weights x0 x0 c h2 hs rfl hc inv hinv x).1

/-- **C77** the N-dimensional spline passes through the data at every grid point, in any number of dimensions. -/
theorem C77_exact (x0s : List (List ℝ)) (invs : List (List (List ℝ))) (hk : Knots x0s invs) (F : List ℕ → ℝ)
    (idx : List ℕ) (hi : InShape (x0s.map List.length) idx) :
    einsum (weightsNd x0s invs (gridPoint x0s idx)) F = F idx := by
  induction hk generalizing F idx with
  | nil => cases hi; rfl
  | @cons x0 inv x0s invs h _ ih =>
    cases hi with
    | @cons i _ idx _ h1 h2 =>
      simp only [gridPoint, List.zipWith_cons_cons, weightsNd, einsum]
      have ih' := fun F => ih F idx h2
      simp only [gridPoint] at ih'
      simp only [ih', sum_eq_dot]
      rw [weights_length x0 h.1 h.2.1 inv h.2.2, C76_weights_knot x0 _ h.1 h.2.1 (by simp) inv h.2.2 i h1]
      rw [at'_eq _ _ (by simpa using h1)]
      simp

/-- **C77** it reproduces every multilinear function at every query, inside or outside the grid. -/
theorem C77_multilinear (x0s : List (List ℝ)) (invs : List (List (List ℝ))) (hk : Knots x0s invs) (f : List ℝ → ℝ)
    (hf : Multilinear x0s.length f) (xs : List ℝ) (hx : xs.length = x0s.length) :
    einsum (weightsNd x0s invs xs) (fun idx => f (gridPoint x0s idx)) = f xs := by
  induction hk generalizing f xs with
  | nil =>
    cases xs with
    | nil => rfl
    | cons _ _ => simp at hx
  | @cons x0 inv x0s invs h _ ih =>
    cases xs with
    | nil => simp at hx
    | cons x xs =>
      simp only [weightsNd, einsum, gridPoint, List.zipWith_cons_cons]
      have ih' : ∀ a, einsum (weightsNd x0s invs xs) (fun idx => f (a :: gridPoint x0s idx)) = f (a :: xs) := by
        intro a
        apply ih (fun l => f (a :: l)) _ xs (by simpa using hx)
        intro pre post hl
        obtain ⟨u, v, h⟩ := hf (a :: pre) post (by simp only [List.length_cons]; omega)
        exact ⟨u, v, fun s => by simpa using h s⟩
      simp only [gridPoint] at ih'
      simp only [ih', sum_eq_dot]
      obtain ⟨u, v, huv⟩ := hf [] xs (by simp at hx ⊢; omega)
      simp only [List.nil_append] at huv
      simp only [huv]
      rw [weights_length x0 h.1 h.2.1 inv h.2.2]
      have e : (List.range x0.length).map (fun i => u + v * at' x0 i) = x0.map fun t => u + v * t := by
        apply List.ext_getElem
        · simp
        · intro i h1 h2
          simp only [List.getElem_map, List.getElem_range]
          rw [at'_eq x0 i (by simpa using h1)]
      rw [e, (C76_weights_sum x0 h.1 h.2.1 inv h.2.2 u v x).1]

/-- The hypotheses are met for every valid grid, for instance this two-dimensional one. -/
example : ∃ invs, Knots [[0, 1, 3], [2, 5]] invs := by
  obtain ⟨i1, h1⟩ := exists_inverse [0, 1, 3] (by simp) (by simp)
  obtain ⟨i2, h2⟩ := exists_inverse [2, 5] (by simp) (by simp; norm_num)
  exact ⟨[i1, i2], .cons ⟨by simp, by simp, h1⟩ (.cons ⟨by simp, by simp; norm_num, h2⟩ .nil)⟩

/-- The knots 0, 1, 3: `C76_affine`, `C76_weights`, `C76_weights_sum`, `C76_weights_knot`, `C77_exact`. -/
example : ∃ c inv, evaluate [0, 1, 3] 3 c 2 = 4 + 5 * 2 ∧ (∀ x, (weights [0, 1, 3] 3 inv x).sum = 1) ∧
    dot (weights [0, 1, 3] 3 inv 2) [4, 9, 19] = evaluate [0, 1, 3] 3 c 2 ∧
    dot (weights [0, 1, 3] 3 inv (at' [0, 1, 3] 1)) [4, 9, 19] = at' [4, 9, 19] 1 := by
  obtain ⟨inv, hi⟩ := exists_inverse [0, 1, 3] (by simp) (by simp)
  obtain ⟨c, hc, -⟩ := C56_exists [0, 1, 3] [4, 9, 19] (by simp) (by simp) rfl
  have e : ([4, 9, 19] : List ℝ) = [0, 1, 3].map fun t : ℝ => 4 + 5 * t := by norm_num
  exact ⟨c, inv, C76_affine _ _ (by simp) (by simp) 4 5 (e ▸ hc) 2, fun x => (C76_weights_sum _ (by simp) (by simp) _ hi 4 5 x).2,
    (C76_weights [0, 1, 3] [4, 9, 19] c (by simp) (by simp) (by simp) hc _ hi 2).2,
    C76_weights_knot [0, 1, 3] [4, 9, 19] (by simp) (by simp) (by simp) _ hi 1 (by simp)⟩
example (F : List ℕ → ℝ) : ∃ invs, einsum (weightsNd [[0, 1, 3], [2, 5]] invs (gridPoint [[0, 1, 3], [2, 5]] [2, 1])) F = F [2, 1] := by
  obtain ⟨i1, h1⟩ := exists_inverse [0, 1, 3] (by simp) (by simp)
  obtain ⟨i2, h2⟩ := exists_inverse [2, 5] (by simp) (by simp; norm_num)
  exact ⟨[i1, i2], C77_exact _ _ (.cons ⟨by simp, by simp, h1⟩ (.cons ⟨by simp, by simp; norm_num, h2⟩ .nil)) F [2, 1]
    (.cons (by norm_num) (.cons (by norm_num) .nil))⟩

end Verif.Interp
