import Verif.Interp.Linear
import Mathlib.Data.List.Flatten
import Mathlib.Algebra.Order.BigOperators.Group.List

/-! # C53, C54: interpolation on an N-dimensional grid -/

namespace Verif.Interp

/-! ### Specification -/

/-- A multi-index within a shape. -/
def InShape (shape idx : List ℕ) : Prop := List.Forall₂ (· < ·) idx shape

/-- The grid point with a given multi-index. -/
def gridPoint (grids : List (List ℝ)) (idx : List ℕ) : List ℝ := List.zipWith at' grids idx

/-- A valid grid in every dimension: at least two points, strictly increasing. -/
def Grids (grids : List (List ℝ)) : Prop := ∀ g ∈ grids, 2 ≤ g.length ∧ g.Pairwise (· < ·)

/-- The point lies within the grid in every dimension. -/
def InRange (grids : List (List ℝ)) (x : List ℝ) : Prop :=
  List.Forall₂ (fun g t => at' g 0 ≤ t ∧ t ≤ at' g (g.length - 1)) grids x

/-- `f` of `n` variables is affine in each variable separately. -/
def Multilinear (n : ℕ) (f : List ℝ → ℝ) : Prop :=
  ∀ pre post : List ℝ, pre.length + 1 + post.length = n → ∃ a b : ℝ, ∀ t, f (pre ++ t :: post) = a + b * t

/-! ### Strides and row-major order -/

/-- Row-major position of a multi-index. -/
def rowMajor : List ℕ → List ℕ → ℕ
  | _ :: sh, i :: idx => i * sh.prod + rowMajor sh idx
  | _, _ => 0

theorem stridesFrom_append (p s : ℕ) (l : List ℕ) : stridesFrom p (l ++ [s]) = stridesFrom p l ++ [p * l.prod] := by
  induction l generalizing p with
  | nil => simp [stridesFrom]
  | cons a l ih => simp [stridesFrom, ih, Nat.mul_assoc]

theorem strides_cons (s : ℕ) (sh : List ℕ) : strides (s :: sh) = sh.prod :: strides sh := by
  simp [strides, stridesFrom_append, List.prod_reverse]

theorem flatIndex_eq (shape idxs d : List ℕ) (h1 : idxs.length = shape.length) (h2 : d.length = shape.length) :
    flatIndex idxs d (strides shape) = rowMajor shape (List.zipWith (· + ·) idxs d) := by
  induction shape generalizing idxs d with
  | nil =>
    cases idxs <;> simp at h1
    simp [flatIndex, rowMajor]
  | cons s sh ih =>
    cases idxs with
    | nil => simp at h1
    | cons i idxs =>
      cases d with
      | nil => simp at h2
      | cons e d =>
        simp only [List.length_cons, Nat.add_right_cancel_iff] at h1 h2
        have := ih idxs d h1 h2
        simp only [flatIndex] at this
        simp only [flatIndex, strides_cons, List.zipWith_cons_cons, List.sum_cons, rowMajor, this]

theorem length_table (shape : List ℕ) (F : List ℕ → ℝ) : (table shape F).length = shape.prod := by
  induction shape generalizing F with
  | nil => rfl
  | cons s sh ih => simp [table, List.length_flatMap, ih]

theorem rowMajor_lt (shape idx : List ℕ) (h : InShape shape idx) : rowMajor shape idx < shape.prod := by
  induction h with
  | nil => simp [rowMajor]
  | @cons i s idx sh h1 _ ih =>
    simp only [rowMajor, List.prod_cons]
    calc i * sh.prod + rowMajor sh idx < i * sh.prod + sh.prod := by omega
      _ = (i + 1) * sh.prod := by ring
      _ ≤ s * sh.prod := Nat.mul_le_mul_right _ h1

theorem at'_flatMap (n s : ℕ) (f : ℕ → List ℝ) (hf : ∀ i, (f i).length = n) (i r : ℕ) (hi : i < s) (hr : r < n) :
    at' ((List.range s).flatMap f) (i * n + r) = at' (f i) r := by
  induction s generalizing i f with
  | zero => omega
  | succ s ih =>
    rw [List.range_succ_eq_map, List.flatMap_cons, List.flatMap_map]
    cases i with
    | zero =>
      have : r < (f 0).length := by rw [hf]; exact hr
      simp [at', List.getElem?_append_left this]
    | succ i =>
      have h1 : (i + 1) * n + r = (f 0).length + (i * n + r) := by rw [hf]; ring
      have h2 := ih (fun k => f (k + 1)) (fun k => hf (k + 1)) i (by omega)
      rw [h1]
      simp only [at', List.getD_eq_getElem?_getD] at h2 ⊢
      rw [List.getElem?_append_right (by omega), Nat.add_sub_cancel_left]
      exact h2

/-- The entry of the flattened tensor at the row-major position. -/
theorem at'_table (shape idx : List ℕ) (h : InShape shape idx) (F : List ℕ → ℝ) :
    at' (table shape F) (rowMajor shape idx) = F idx := by
  induction h generalizing F with
  | nil => rfl
  | @cons i s idx sh h1 h2 ih =>
    simp only [table, rowMajor]
    rw [at'_flatMap sh.prod s _ (fun i => length_table sh _) i _ h1 (rowMajor_lt sh idx h2)]
    exact ih fun idx => F (i :: idx)

/-! ### The sum over corners -/

/-- The position within the bracket: `t = 1 - w`. -/
noncomputable def frac (g : List ℝ) (x : ℝ) : ℝ := 1 - weight1 g x

/-- Sum over the corners with a given weight for each bit. -/
noncomputable def cornerSum (wt : ℝ → ℕ → ℝ) : List (ℕ × ℝ) → (List ℕ → ℝ) → ℝ
  | [], F => F []
  | (i, t) :: r, F => wt t 0 * cornerSum wt r (fun idx => F (i :: idx)) + wt t 1 * cornerSum wt r fun idx => F ((i + 1) :: idx)

/-- The signed (multilinear) weights and the absolute ones. -/
def signed (t : ℝ) (d : ℕ) : ℝ := if d = 0 then 1 - t else t
@[inherit_doc signed] noncomputable def absolute (t : ℝ) (d : ℕ) : ℝ := |signed t d|

theorem corners_length (n : ℕ) : ∀ d ∈ corners n, d.length = n ∧ ∀ k ∈ d, k = 0 ∨ k = 1 := by
  induction n with
  | zero => simp [corners]
  | succ n ih =>
    intro d hd
    simp only [corners, List.flatMap_cons, List.flatMap_nil, List.append_nil, List.mem_append, List.mem_map] at hd
    rcases hd with ⟨e, he, rfl⟩ | ⟨e, he, rfl⟩ <;> obtain ⟨h1, h2⟩ := ih e he
    · refine ⟨by simp [h1], fun k hk => ?_⟩
      rcases List.mem_cons.mp hk with rfl | hk
      · exact .inl rfl
      · exact h2 k hk
    · refine ⟨by simp [h1], fun k hk => ?_⟩
      rcases List.mem_cons.mp hk with rfl | hk
      · exact .inr rfl
      · exact h2 k hk

theorem cornerWeight_cons (w : ℝ) (ws : List ℝ) (d : ℕ) (ds : List ℕ) :
    cornerWeight (w :: ws) (d :: ds) = |(d : ℝ) - w| * cornerWeight ws ds := by
  simp [cornerWeight, abs_mul]

/-- The sum over `corners` in the code as a nested sum. -/
theorem sum_corners (its : List (ℕ × ℝ)) (F : List ℕ → ℝ) :
    ((corners its.length).map fun d => cornerWeight (its.map fun p => 1 - p.2) d *
      F (List.zipWith (· + ·) (its.map Prod.fst) d)).sum = cornerSum absolute its F := by
  induction its generalizing F with
  | nil => simp [corners, cornerSum, cornerWeight]
  | cons p its ih =>
    obtain ⟨i, t⟩ := p
    simp only [List.length_cons, corners, List.flatMap_cons, List.flatMap_nil, List.append_nil, List.map_append,
      List.map_map, List.sum_append, List.map_cons, cornerSum]
    have e0 : ∀ k : ℕ, ((corners its.length).map ((fun d => cornerWeight ((1 - t) :: its.map fun p => 1 - p.2) d *
        F (List.zipWith (· + ·) (i :: its.map Prod.fst) d)) ∘ (k :: ·))).sum =
        |(k : ℝ) - (1 - t)| * cornerSum absolute its fun idx => F ((i + k) :: idx) := by
      intro k
      rw [← ih fun idx => F ((i + k) :: idx), ← List.sum_map_mul_left]
      congr 1
      apply List.map_congr_left
      intro d _
      simp only [Function.comp, cornerWeight_cons, List.zipWith_cons_cons]
      ring
    have e1 := e0 0
    have e2 := e0 1
    rw [e1, e2]
    congr 1
    · simp only [absolute, signed, if_true, Nat.cast_zero, zero_sub, abs_neg, Nat.add_zero]
    · simp [absolute, signed]

theorem cornerSum_one (wt : ℝ → ℕ → ℝ) (h : ∀ t, wt t 0 + wt t 1 = 1) (its : List (ℕ × ℝ)) :
    cornerSum wt its (fun _ => 1) = 1 := by
  induction its with
  | nil => rfl
  | cons p its ih => simp [cornerSum, ih, h]

theorem cornerSum_congr (wt : ℝ → ℕ → ℝ) (its : List (ℕ × ℝ)) (F G : List ℕ → ℝ)
    (h : ∀ d ∈ corners its.length, F (List.zipWith (· + ·) (its.map Prod.fst) d) = G (List.zipWith (· + ·) (its.map Prod.fst) d)) :
    cornerSum wt its F = cornerSum wt its G := by
  induction its generalizing F G with
  | nil => simpa [cornerSum, corners] using h
  | cons p its ih =>
    obtain ⟨i, t⟩ := p
    simp only [cornerSum]
    rw [ih (fun idx => F (i :: idx)) (fun idx => G (i :: idx)), ih (fun idx => F ((i + 1) :: idx)) (fun idx => G ((i + 1) :: idx))]
    · intro d hd
      have := h (1 :: d) (by simp [corners]; exact hd)
      simpa using this
    · intro d hd
      have := h (0 :: d) (by simp [corners]; exact hd)
      simpa using this

theorem cornerSum_le (wt : ℝ → ℕ → ℝ) (h : ∀ t d, 0 ≤ wt t d) (its : List (ℕ × ℝ)) (F G : List ℕ → ℝ)
    (hle : ∀ d ∈ corners its.length,
      F (List.zipWith (· + ·) (its.map Prod.fst) d) ≤ G (List.zipWith (· + ·) (its.map Prod.fst) d)) :
    cornerSum wt its F ≤ cornerSum wt its G := by
  induction its generalizing F G with
  | nil => simpa [cornerSum, corners] using hle
  | cons p its ih =>
    obtain ⟨i, t⟩ := p
    simp only [cornerSum]
    have h0 := ih (fun idx => F (i :: idx)) (fun idx => G (i :: idx)) (by
      intro d hd
      have := hle (0 :: d) (by simp [corners]; exact hd)
      simpa using this)
    have h1 := ih (fun idx => F ((i + 1) :: idx)) (fun idx => G ((i + 1) :: idx)) (by
      intro d hd
      have := hle (1 :: d) (by simp [corners]; exact hd)
      simpa using this)
    have a0 := mul_le_mul_of_nonneg_left h0 (h t 0)
    have a1 := mul_le_mul_of_nonneg_left h1 (h t 1)
    linarith

theorem cornerSum_mul (wt : ℝ → ℕ → ℝ) (its : List (ℕ × ℝ)) (F : List ℕ → ℝ) (a : ℝ) :
    cornerSum wt its (fun idx => a * F idx) = a * cornerSum wt its F := by
  induction its generalizing F with
  | nil => rfl
  | cons p its ih => simp only [cornerSum, ih]; ring

/-- Index and position per dimension. -/
noncomputable def locate (grids : List (List ℝ)) (x : List ℝ) : List (ℕ × ℝ) :=
  List.zipWith (fun g t => (projectOne g t, frac g t)) grids x

theorem locate_fst (grids : List (List ℝ)) (x : List ℝ) : (locate grids x).map Prod.fst = List.zipWith projectOne grids x := by
  simp [locate, List.map_zipWith]

theorem locate_weight (grids : List (List ℝ)) (x : List ℝ) :
    (locate grids x).map (fun p => 1 - p.2) = List.zipWith weight1 grids x := by
  simp [locate, List.map_zipWith, frac]

theorem inShape_corner (grids : List (List ℝ)) (hg : Grids grids) (x : List ℝ) (hx : x.length = grids.length)
    (d : List ℕ) (hd : d ∈ corners grids.length) :
    InShape (grids.map List.length) (List.zipWith (· + ·) ((locate grids x).map Prod.fst) d) := by
  induction grids generalizing x d with
  | nil => cases x <;> simp_all [locate, InShape]
  | cons g grids ih =>
    cases x with
    | nil => simp at hx
    | cons t x =>
      have hg' := hg g List.mem_cons_self
      have hpl := project_lt g hg'.1 t
      have ih' := ih (fun g' h' => hg g' (List.mem_cons_of_mem _ h')) x (by simpa using hx)
      simp only [List.length_cons, corners, List.flatMap_cons, List.flatMap_nil, List.append_nil, List.mem_append,
        List.mem_map] at hd
      rcases hd with ⟨e, he, rfl⟩ | ⟨e, he, rfl⟩
      · exact List.Forall₂.cons (show projectOne g t + 0 < g.length by omega) (ih' e he)
      · exact List.Forall₂.cons (show projectOne g t + 1 < g.length from hpl) (ih' e he)

/-- The code's value as a quotient of nested sums, for any flattened tensor. -/
theorem linearNd_eq (grids : List (List ℝ)) (hg : Grids grids) (x : List ℝ) (hx : x.length = grids.length)
    (F : List ℕ → ℝ) :
    linearNd grids (table (grids.map List.length) F) x =
      cornerSum absolute (locate grids x) F / cornerSum absolute (locate grids x) fun _ => 1 := by
  have hlen : (locate grids x).length = grids.length := by simp [locate, hx]
  rw [← sum_corners, ← sum_corners, hlen, locate_weight, locate_fst]
  unfold linearNd
  simp only [mul_one]
  congr 2
  apply List.map_congr_left
  intro d hd
  have hs := inShape_corner grids hg x hx d hd
  rw [locate_fst] at hs
  rw [flatIndex_eq _ _ _ (by simp [hx]) (by simp [(corners_length _ d hd).1]), at'_table _ _ hs]

theorem absolute_pos (t : ℝ) : 1 ≤ absolute t 0 + absolute t 1 := by
  have := abs_add_le (1 - t) t
  simp only [absolute, signed]
  norm_num at this ⊢
  exact this

theorem cornerSum_absolute_pos (its : List (ℕ × ℝ)) : 1 ≤ cornerSum absolute its fun _ => 1 := by
  induction its with
  | nil => simp [cornerSum]
  | cons p its ih =>
    simp only [cornerSum]
    have := absolute_pos p.2
    nlinarith

theorem frac_range (g : List ℝ) (h2 : 2 ≤ g.length) (hs : g.Pairwise (· < ·)) (t : ℝ)
    (h : at' g 0 ≤ t ∧ t ≤ at' g (g.length - 1)) :
    0 ≤ frac g t ∧ frac g t ≤ 1 ∧
      t = at' g (projectOne g t) + frac g t * (at' g (projectOne g t + 1) - at' g (projectOne g t)) := by
  have hpl := project_lt g h2 t
  have hd := sorted_lt g hs _ _ (Nat.lt_succ_self (projectOne g t)) hpl
  simp only [Nat.succ_eq_add_one] at hd
  obtain ⟨-, b1, b2, -, b4⟩ := C51_bracket g (strict_weak hs) h2 t
  have hlo := b1 h.1
  have hhi : t ≤ at' g (projectOne g t + 1) := by
    rcases h.2.lt_or_eq with h' | h'
    · exact (b2 h').le
    · have := b4 h'.ge
      have e : g.length - 1 = projectOne g t + 1 := by omega
      rw [← e]; exact h'.le
  have hpos : 0 < at' g (projectOne g t + 1) - at' g (projectOne g t) := by linarith
  have e : frac g t = (t - at' g (projectOne g t)) / (at' g (projectOne g t + 1) - at' g (projectOne g t)) := by
    unfold frac weight1
    rw [at'_diff g _ hpl]; ring
  refine ⟨?_, ?_, ?_⟩
  · rw [e]; exact div_nonneg (by linarith) hpos.le
  · rw [e, div_le_one hpos]; linarith
  · rw [e, div_mul_cancel₀ _ hpos.ne']; ring

/-- Within the grid the absolute values are those of non-negative numbers. -/
theorem cornerSum_abs_eq (grids : List (List ℝ)) (hg : Grids grids) (x : List ℝ) (hr : InRange grids x)
    (F : List ℕ → ℝ) : cornerSum absolute (locate grids x) F = cornerSum signed (locate grids x) F := by
  induction hr generalizing F with
  | nil => rfl
  | @cons g t gs ts h1 h2 ih =>
    have hg' := hg g List.mem_cons_self
    obtain ⟨f0, f1, -⟩ := frac_range g hg'.1 hg'.2 t h1
    have ih' := ih fun g' h' => hg g' (List.mem_cons_of_mem _ h')
    simp only [locate, List.zipWith_cons_cons, cornerSum] at ih' ⊢
    rw [ih', ih']
    congr 2
    · simp [absolute, signed, abs_of_nonneg (by linarith : (0 : ℝ) ≤ 1 - frac g t)]
    · simp [absolute, signed, abs_of_nonneg f0]

/-! ### C53 -/

theorem inRange_length {grids : List (List ℝ)} {x : List ℝ} (h : InRange grids x) : x.length = grids.length :=
  h.length_eq.symm

/-- **C53** for a query within the grid the `2^N` weights are non-negative and sum to 1; they multiply the values at
the corners of the grid cell that contains the query. -/
theorem C53_weights (grids : List (List ℝ)) (hg : Grids grids) (x : List ℝ) (hr : InRange grids x) :
    ∃ W : List (ℝ × List ℕ), W.length = 2 ^ grids.length ∧ (∀ p ∈ W, 0 ≤ p.1 ∧ InShape (grids.map List.length) p.2) ∧
      (W.map Prod.fst).sum = 1 ∧
      ∀ F : List ℕ → ℝ, linearNd grids (table (grids.map List.length) F) x = (W.map fun p => p.1 * F p.2).sum := by
  have hx := inRange_length hr
  have hlen : (locate grids x).length = grids.length := by simp [locate, hx]
  have hone : cornerSum absolute (locate grids x) (fun _ => 1) = 1 := by
    rw [cornerSum_abs_eq grids hg x hr, cornerSum_one]
    intro t; simp [signed]
  refine ⟨(corners grids.length).map fun d => (cornerWeight ((locate grids x).map fun p => 1 - p.2) d,
    List.zipWith (· + ·) ((locate grids x).map Prod.fst) d), ?_, ?_, ?_, ?_⟩
  · rw [List.length_map]
    generalize grids.length = n
    induction n with
    | zero => rfl
    | succ n ih => simp [corners, ih]; ring
  · intro p hp
    obtain ⟨d, hd, rfl⟩ := List.mem_map.mp hp
    exact ⟨abs_nonneg _, inShape_corner grids hg x hx d hd⟩
  · rw [← sum_corners, hlen] at hone
    rw [List.map_map]
    simpa [Function.comp_def] using hone
  · intro F
    rw [linearNd_eq grids hg x hx F, hone, div_one, ← sum_corners, hlen, List.map_map]
    rfl

/-- **C53** reproduces every multilinear function (one that is affine in each variable separately) exactly, at every
query within the grid, in any number of dimensions. -/
theorem C53_multilinear (grids : List (List ℝ)) (hg : Grids grids) (f : List ℝ → ℝ) (hf : Multilinear grids.length f)
    (x : List ℝ) (hr : InRange grids x) :
    linearNd grids (table (grids.map List.length) fun idx => f (gridPoint grids idx)) x = f x := by
  have hx := inRange_length hr
  rw [linearNd_eq grids hg x hx, cornerSum_abs_eq grids hg x hr, cornerSum_abs_eq grids hg x hr,
    cornerSum_one signed (by intro t; simp [signed]), div_one]
  clear hx
  induction hr generalizing f with
  | nil => rfl
  | @cons g t gs ts h1 h2 ih =>
    have hg' := hg g List.mem_cons_self
    obtain ⟨-, -, he⟩ := frac_range g hg'.1 hg'.2 t h1
    have hgs : Grids gs := fun g' h' => hg g' (List.mem_cons_of_mem _ h')
    have ih' : ∀ a, cornerSum signed (locate gs ts) (fun idx => f (a :: gridPoint gs idx)) = f (a :: ts) := by
      intro a
      apply ih hgs (fun l => f (a :: l))
      intro pre post hl
      obtain ⟨u, v, h⟩ := hf (a :: pre) post (by simp only [List.length_cons]; omega)
      exact ⟨u, v, fun s => by simpa using h s⟩
    simp only [locate, List.zipWith_cons_cons, cornerSum, gridPoint] at ih' ⊢
    rw [ih', ih']
    obtain ⟨u, v, h⟩ := hf [] ts (by have := h2.length_eq; simp; omega)
    simp only [List.nil_append] at h
    rw [h, h, h]
    simp only [signed, if_true, if_neg one_ne_zero]
    linear_combination (-v) * he

/-- **C53** exact at every grid point, whatever the values. -/
theorem C53_exact (grids : List (List ℝ)) (hg : Grids grids) (F : List ℕ → ℝ) (idx : List ℕ)
    (hi : InShape (grids.map List.length) idx) :
    linearNd grids (table (grids.map List.length) F) (gridPoint grids idx) = F idx := by
  have hlen : idx.length = grids.length := by simpa using hi.length_eq
  have hr : InRange grids (gridPoint grids idx) := by
    clear hlen
    induction grids generalizing idx with
    | nil => cases hi; exact .nil
    | cons g grids ih =>
      cases hi with
      | @cons i _ idx _ h1 h2 =>
        have hg' := hg g List.mem_cons_self
        refine List.Forall₂.cons ⟨?_, ?_⟩ (ih (fun g' h' => hg g' (List.mem_cons_of_mem _ h')) idx h2)
        · exact sorted_le g (strict_weak hg'.2) 0 i (by omega) h1
        · exact sorted_le g (strict_weak hg'.2) i _ (by omega) (by omega)
  rw [linearNd_eq grids hg _ (inRange_length hr), cornerSum_abs_eq grids hg _ hr, cornerSum_abs_eq grids hg _ hr,
    cornerSum_one signed (by intro t; simp [signed]), div_one]
  clear hr hlen
  induction grids generalizing idx F with
  | nil => cases hi; rfl
  | cons g grids ih =>
    cases hi with
    | @cons i _ idx _ h1 h2 =>
      have hg' := hg g List.mem_cons_self
      have hgs : Grids grids := fun g' h' => hg g' (List.mem_cons_of_mem _ h')
      have ih' := fun F => ih hgs F idx h2
      simp only [locate, gridPoint] at ih'
      simp only [locate, gridPoint, List.zipWith_cons_cons, cornerSum]
      rw [ih', ih']
      have hw := strict_weak hg'.2
      rcases Nat.lt_or_ge (i + 1) g.length with h | h
      · have hlt := sorted_lt g hg'.2 i (i + 1) (by omega) h
        have hp := project_eq g hw (at' g i) i h (.inl le_rfl) (.inl hlt)
        have hf : frac g (at' g i) = 0 := by simp [frac, weight1, hp]
        rw [hp, hf]
        simp [signed]
      · obtain ⟨j, rfl⟩ : ∃ j, i = j + 1 := ⟨i - 1, by omega⟩
        have hlt := sorted_lt g hg'.2 j (j + 1) (by omega) h1
        have hp := project_eq g hw (at' g (j + 1)) j h1 (.inl hlt.le) (.inr (by omega))
        have hf : frac g (at' g (j + 1)) = 1 := by
          unfold frac weight1
          rw [hp, at'_diff g j h1]
          have : at' g (j + 1) - at' g j ≠ 0 := by linarith
          field_simp
          ring
        rw [hp, hf]
        simp [signed]

/-- **C53** the value is a weighted mean: it never leaves the range of the tabulated values, even for queries outside
the grid. -/
theorem C53_bounds (grids : List (List ℝ)) (hg : Grids grids) (F : List ℕ → ℝ) (x : List ℝ)
    (hx : x.length = grids.length) (m M : ℝ)
    (hF : ∀ idx, InShape (grids.map List.length) idx → m ≤ F idx ∧ F idx ≤ M) :
    m ≤ linearNd grids (table (grids.map List.length) F) x ∧ linearNd grids (table (grids.map List.length) F) x ≤ M := by
  have hlen : (locate grids x).length = grids.length := by simp [locate, hx]
  rw [linearNd_eq grids hg x hx]
  have hpos : 0 < cornerSum absolute (locate grids x) fun _ => 1 := lt_of_lt_of_le one_pos (cornerSum_absolute_pos _)
  have hs := fun d (hd : d ∈ corners (locate grids x).length) => inShape_corner grids hg x hx d (hlen ▸ hd)
  have h1 := cornerSum_le absolute (fun t d => abs_nonneg _) (locate grids x) (fun _ => m * 1) F
    fun d hd => by simpa using (hF _ (hs d hd)).1
  have h2 := cornerSum_le absolute (fun t d => abs_nonneg _) (locate grids x) F (fun _ => M * 1)
    fun d hd => by simpa using (hF _ (hs d hd)).2
  rw [cornerSum_mul absolute _ (fun _ => 1)] at h1 h2
  exact ⟨by rw [le_div_iff₀ hpos]; exact h1, by rw [div_le_iff₀ hpos]; exact h2⟩

/-- The hypotheses are met by a non-trivial case: a 2-d grid and `f(x, y) = 1 + 2x + 3xy`. -/
theorem ex_nd : Grids [[0, 1, 3], [2, 5]] ∧ Multilinear 2 (fun l => match l with | [x, y] => 1 + 2 * x + 3 * x * y | _ => 0) ∧
    InRange [[0, 1, 3], [2, 5]] [2, 3] ∧ InShape [3, 2] [2, 1] := by
  refine ⟨?_, ?_, ?_, ?_⟩
  · intro g hg
    simp only [List.mem_cons, List.not_mem_nil, or_false] at hg
    rcases hg with rfl | rfl
    · simp
    · simp; norm_num
  · intro pre post h
    match pre, post with
    | [], [y] => exact ⟨1, 2 + 3 * y, fun t => by simp; ring⟩
    | [x], [] => exact ⟨1 + 2 * x, 3 * x, fun t => by simp⟩
    | [], [] => simp at h
    | [], _ :: _ :: _ => simp at h; omega
    | [_], _ :: _ => simp at h
    | _ :: _ :: _, _ => simp at h; omega
  · refine .cons ?_ (.cons ?_ .nil) <;> simp [at'] <;> norm_num
  · exact .cons (by norm_num) (.cons (by norm_num) .nil)

/-! ### C54 -/

theorem linearNd_one (g ys : List ℝ) (hl : g.length = ys.length) (h2 : 2 ≤ g.length) (hs : g.Pairwise (· < ·)) (x : ℝ) :
    linearNd [g] ys [x] = (|1 - frac g x| * at' ys (projectOne g x) + |frac g x| * at' ys (projectOne g x + 1)) /
      (|1 - frac g x| + |frac g x|) := by
  have hys : ys = table ([g].map List.length) (fun idx => at' ys (idx.headD 0)) := by
    apply List.ext_getElem
    · simp [table, hl]
    · intro i h1 h3
      have : at' (table ([g].map List.length) fun idx => at' ys (idx.headD 0)) (rowMajor [g.length] [i]) = at' ys i :=
        at'_table _ _ (.cons (by omega) .nil) _
      rw [← at'_eq, ← at'_eq, ← this]
      simp [rowMajor]
  have hg : Grids [g] := by intro g' h'; simp at h'; subst h'; exact ⟨h2, hs⟩
  conv_lhs => rw [hys]
  rw [linearNd_eq [g] hg [x] rfl]
  simp [locate, cornerSum, absolute, signed]

theorem linear1d_frac (g ys : List ℝ) (hl : g.length = ys.length) (h2 : 2 ≤ g.length) (x : ℝ) :
    linear1d g ys x = (1 - frac g x) * at' ys (projectOne g x) + frac g x * at' ys (projectOne g x + 1) := by
  rw [linear1d_eq g ys hl h2]
  unfold frac weight1
  rw [at'_diff g _ (project_lt g h2 x)]
  ring

/-- **C54** what the code does in one dimension: it agrees with linear inter/extrapolation exactly when the query is
within the grid, or the two end values used are equal. -/
theorem C54_agrees_iff (g ys : List ℝ) (hl : g.length = ys.length) (h2 : 2 ≤ g.length) (hs : g.Pairwise (· < ·)) (x : ℝ) :
    linearNd [g] ys [x] = linear1d g ys x ↔
      (at' g 0 ≤ x ∧ x ≤ at' g (g.length - 1)) ∨ at' ys (projectOne g x) = at' ys (projectOne g x + 1) := by
  rw [linearNd_one g ys hl h2 hs, linear1d_frac g ys hl h2]
  constructor
  · intro h
    by_contra hc
    rw [not_or] at hc
    obtain ⟨h1, h3⟩ := hc
    have hpl := project_lt g h2 x
    have hd := sorted_lt g hs _ _ (Nat.lt_succ_self (projectOne g x)) hpl
    simp only [Nat.succ_eq_add_one] at hd
    have hpos : 0 < at' g (projectOne g x + 1) - at' g (projectOne g x) := by linarith
    have e : frac g x = (x - at' g (projectOne g x)) / (at' g (projectOne g x + 1) - at' g (projectOne g x)) := by
      unfold frac weight1
      rw [at'_diff g _ hpl]; ring
    obtain ⟨-, -, -, b3, b4⟩ := C51_bracket g (strict_weak hs) h2 x
    set t := frac g x
    have hden : 0 < |1 - t| + |t| := by have := abs_add_le (1 - t) t; norm_num at this; linarith
    rw [div_eq_iff hden.ne'] at h
    have hsub : at' ys (projectOne g x) - at' ys (projectOne g x + 1) ≠ 0 := sub_ne_zero.mpr h3
    by_cases hlo : at' g 0 ≤ x
    · have hhi : at' g (g.length - 1) < x := by
        by_contra hc; exact h1 ⟨hlo, not_lt.mp hc⟩
      have hp := b4 hhi.le
      have ht : 1 < t := by
        rw [e, one_lt_div hpos, show projectOne g x + 1 = g.length - 1 by omega]; linarith
      rw [abs_of_neg (by linarith), abs_of_pos (by linarith)] at h
      have : (t - 1) * (at' ys (projectOne g x) - at' ys (projectOne g x + 1)) * (2 * t) = 0 := by linear_combination h
      rcases mul_eq_zero.mp this with h5 | h5
      · rcases mul_eq_zero.mp h5 with h6 | h6
        · linarith
        · exact hsub h6
      · linarith
    · have hp := b3 (not_le.mp hlo)
      have ht : t < 0 := by
        rw [e]; apply div_neg_of_neg_of_pos _ hpos; rw [hp]; linarith [not_le.mp hlo]
      rw [abs_of_pos (by linarith), abs_of_neg ht] at h
      have : t * (at' ys (projectOne g x) - at' ys (projectOne g x + 1)) * (2 * (1 - t)) = 0 := by linear_combination h
      rcases mul_eq_zero.mp this with h5 | h5
      · rcases mul_eq_zero.mp h5 with h6 | h6
        · linarith
        · exact hsub h6
      · linarith
  · rintro (h | h)
    · obtain ⟨f0, f1, -⟩ := frac_range g h2 hs x h
      rw [abs_of_nonneg f0, abs_of_nonneg (by linarith)]
      rw [show 1 - frac g x + frac g x = 1 by ring, div_one]
    · rw [← h]
      have hden : 0 < |1 - frac g x| + |frac g x| := by
        have := abs_add_le (1 - frac g x) (frac g x); norm_num at this; linarith
      field_simp
      ring

/-- **C54** so linear continuation fails outside the grid: the identity sampled at 0 and 1 gives 2/3 at 2. -/
theorem C54_false : linearNd [[0, 1]] [0, 1] [2] = 2 / 3 ∧ linear1d [0, 1] [0, 1] 2 = 2 := by
  have hs : ([0, 1] : List ℝ).Pairwise (· < ·) := by simp
  have hp : projectOne [0, 1] 2 = 0 := project_eq [0, 1] (strict_weak hs) 2 0 (by simp) (.inr rfl) (.inr rfl)
  have hf : frac [0, 1] 2 = 2 := by norm_num [frac, weight1, hp, diff]
  constructor
  · rw [linearNd_one [0, 1] [0, 1] rfl (by simp) hs, hf, hp]
    norm_num
  · rw [linear1d_frac [0, 1] [0, 1] rfl (by simp), hf, hp]
    norm_num

/-- **C54** the part that holds: within the grid, in any number of dimensions, the interpolator is affine along each
coordinate inside a cell, so it agrees with every multilinear function there. -/
theorem C54_in_range (grids : List (List ℝ)) (hg : Grids grids) (f : List ℝ → ℝ)
    (hf : Multilinear grids.length f) (x : List ℝ) (hr : InRange grids x) :
    linearNd grids (table (grids.map List.length) fun idx => f (gridPoint grids idx)) x = f x :=
  C53_multilinear grids hg f hf x hr

/-- `C53_weights`, `C53_multilinear`, `C53_exact`, `C54_in_range` in the case `ex_nd`; `C54_agrees_iff`. -/
example := C53_weights [[0, 1, 3], [2, 5]] ex_nd.1 [2, 3] ex_nd.2.2.1
example := C53_multilinear [[0, 1, 3], [2, 5]] ex_nd.1 _ ex_nd.2.1 [2, 3] ex_nd.2.2.1
example (F : List ℕ → ℝ) := C53_exact [[0, 1, 3], [2, 5]] ex_nd.1 F [2, 1] ex_nd.2.2.2
example := C54_in_range [[0, 1, 3], [2, 5]] ex_nd.1 _ ex_nd.2.1 [2, 3] ex_nd.2.2.1
example := C54_agrees_iff [0, 1, 3] [2, 5, 7] rfl (by simp) (by norm_num) 4

end Verif.Interp
