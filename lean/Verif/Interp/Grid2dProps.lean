import Verif.Interp.GridSample
import Mathlib.Tactic.NormNum

/-! # C114: `interp2d` -/

namespace Verif.Interp.Grid2d

theorem broadcastRev_nil (a : List ℕ) : broadcastRev a [] = some a := by cases a <;> rfl

theorem broadcast_nil (a : List ℕ) : broadcast a [] = some a := by
  simp [broadcast, broadcastRev_nil]

theorem dropLast2_short {s : List ℕ} (h : s.length ≤ 2) : dropLast2 s = [] := by
  rw [dropLast2, Nat.sub_eq_zero_of_le h, List.take_zero]

theorem node_true_ends (e0 e1 : ℝ) (n : ℕ) (hn : 2 ≤ n) : node true e0 e1 n 0 = e0 ∧ node true e0 e1 n ((n : ℝ) - 1) = e1 := by
  have h2 : (2 : ℝ) ≤ n := by exact_mod_cast hn
  have h3 : (n : ℝ) - 1 ≠ 0 := by linarith
  simp only [node, if_true]
  refine ⟨by ring, by field_simp; ring⟩

/-- What a successful call returns. -/
theorem interp2d_ok {align : Bool} {pad : Pad} {x y r : Tensor} {z : Tables} {ex0 ex1 ey0 ey1 : ℝ}
    (h : interp2d align pad x y z ex0 ex1 ey0 ey1 = .ok r) (i : List ℕ) :
    r.get i = gridSample align pad z.ny z.nx (fun h w => z.get (bindex z.batch i) w h)
        (normalise ex0 ex1 (x.get (bindex x.shape i))) (normalise ey0 ey1 (y.get (bindex y.shape i))) := by
  unfold interp2d at h
  split at h
  · cases h
  · split at h
    · cases h
    · split at h
      · cases h
      · split at h
        · cases h
        · cases h; rfl

/-- **C114** with `align_corners=True` every element of the result is the bilinear interpolant of the table that belongs to it, on the regular
`N_x × N_y` grid that spans the extents, at every point of the extents, edges included. Missing: the default `align_corners=False` (see `C114_default_partial`
and `C114_default_corner`). -/
theorem C114_aligned_partial (pad : Pad) (x y r : Tensor) (z : Tables) (ex0 ex1 ey0 ey1 : ℝ) (hx : ex0 < ex1) (hy : ey0 < ey1)
    (hnx : 2 ≤ z.nx) (hny : 2 ≤ z.ny) (h : interp2d true pad x y z ex0 ex1 ey0 ey1 = .ok r) (i : List ℕ)
    (hxi : ex0 ≤ x.get (bindex x.shape i) ∧ x.get (bindex x.shape i) ≤ ex1)
    (hyi : ey0 ≤ y.get (bindex y.shape i) ∧ y.get (bindex y.shape i) ≤ ey1) :
    IsBilinear true z.nx z.ny (z.get (bindex z.batch i)) ex0 ex1 ey0 ey1 (x.get (bindex x.shape i)) (y.get (bindex y.shape i)) (r.get i) := by
  obtain ⟨hx0, hx1⟩ := node_true_ends ex0 ex1 z.nx hnx
  obtain ⟨hy0, hy1⟩ := node_true_ends ey0 ey1 z.ny hny
  obtain ⟨a, s, ha, s0, s1, hs⟩ := exists_cell true ex0 ex1 hx z.nx hnx _ (hx0.trans_le hxi.1) (hxi.2.trans_eq hx1.symm)
  obtain ⟨b, t, hb, t0, t1, ht⟩ := exists_cell true ey0 ey1 hy z.ny hny _ (hy0.trans_le hyi.1) (hyi.2.trans_eq hy1.symm)
  have hB : IsBilinear true z.nx z.ny (z.get (bindex z.batch i)) ex0 ex1 ey0 ey1 (x.get (bindex x.shape i)) (y.get (bindex y.shape i)) _ :=
    ⟨a, b, s, t, ha, hb, s0, s1, t0, t1, hs, ht, rfl⟩
  rw [interp2d_ok h i, gridSample_bilinear true pad _ _ (z.get (bindex z.batch i)) _ _ _ _ _ _ _ hx.ne hy.ne hB]
  exact hB

/-- **C114** by default the grid nodes are the centres of `N_x × N_y` equal cells that fill the extents, and the result is the bilinear interpolant of the
table on those, at every point between the first and the last node in both directions. -/
theorem C114_default_partial (pad : Pad) (x y r : Tensor) (z : Tables) (ex0 ex1 ey0 ey1 : ℝ) (hx : ex0 < ex1) (hy : ey0 < ey1)
    (hnx : 2 ≤ z.nx) (hny : 2 ≤ z.ny) (h : interp2d false pad x y z ex0 ex1 ey0 ey1 = .ok r) (i : List ℕ)
    (hxi : node false ex0 ex1 z.nx 0 ≤ x.get (bindex x.shape i) ∧ x.get (bindex x.shape i) ≤ node false ex0 ex1 z.nx (z.nx - 1))
    (hyi : node false ey0 ey1 z.ny 0 ≤ y.get (bindex y.shape i) ∧ y.get (bindex y.shape i) ≤ node false ey0 ey1 z.ny (z.ny - 1)) :
    IsBilinear false z.nx z.ny (z.get (bindex z.batch i)) ex0 ex1 ey0 ey1 (x.get (bindex x.shape i)) (y.get (bindex y.shape i)) (r.get i) := by
  obtain ⟨a, s, ha, s0, s1, hs⟩ := exists_cell false ex0 ex1 hx z.nx hnx _ hxi.1 hxi.2
  obtain ⟨b, t, hb, t0, t1, ht⟩ := exists_cell false ey0 ey1 hy z.ny hny _ hyi.1 hyi.2
  have hB : IsBilinear false z.nx z.ny (z.get (bindex z.batch i)) ex0 ex1 ey0 ey1 (x.get (bindex x.shape i)) (y.get (bindex y.shape i)) _ :=
    ⟨a, b, s, t, ha, hb, s0, s1, t0, t1, hs, ht, rfl⟩
  rw [interp2d_ok h i, gridSample_bilinear false pad _ _ (z.get (bindex z.batch i)) _ _ _ _ _ _ _ hx.ne hy.ne hB]
  exact hB

/-- **C114** by default the value at the lower corner of the extents is a quarter of the first entry of the table, whatever the table. -/
theorem C114_default_corner (x y r : Tensor) (z : Tables) (ex0 ex1 ey0 ey1 : ℝ) (hnx : 1 ≤ z.nx) (hny : 1 ≤ z.ny)
    (h : interp2d false .zeros x y z ex0 ex1 ey0 ey1 = .ok r) (i : List ℕ)
    (hxi : x.get (bindex x.shape i) = ex0) (hyi : y.get (bindex y.shape i) = ey0) :
    r.get i = z.get (bindex z.batch i) 0 0 / 4 := by
  rw [interp2d_ok h i, hxi, hyi, gridSample_eq_lin]
  have hu : ∀ (n : ℕ) (e0 e1 : ℝ), clip .zeros n (unnormalize false n (normalise e0 e1 e0)) = ((-1 : ℤ) : ℝ) + 1 / 2 := fun n e0 e1 => by
    simp only [clip, unnormalize, normalise, sub_self, mul_zero, zero_div, Bool.false_eq_true, if_false]
    norm_num
  rw [hu, hu, lin_eq _ _ _ (by norm_num) (by norm_num), lin_eq _ _ _ (by norm_num) (by norm_num), lin_eq _ _ _ (by norm_num) (by norm_num)]
  simp only [pixel]
  rw [if_neg (by omega), if_neg (by omega), if_neg (by omega), if_pos (by omega)]
  norm_num
  ring

/-! ### Shapes -/

/-- **C114** if `x` has at most two dimensions, `x` and `y` broadcast to a non-empty shape and the batch shape of the tables expands to it, then the
result has that shape. Missing: `x` with three or more dimensions, tables with a larger batch than `x` and `y`, and scalars (see the theorems
below). -/
theorem C114_shape_partial (align : Bool) (pad : Pad) (x y : Tensor) (z : Tables) (ex0 ex1 ey0 ey1 : ℝ) (b : List ℕ) (hx : x.shape.length ≤ 2)
    (hb : broadcast x.shape y.shape = some b) (hb0 : b ≠ []) (hz : expands z.batch b = true) :
    ∃ r, interp2d align pad x y z ex0 ex1 ey0 ey1 = .ok r ∧ r.shape = b := by
  simp only [interp2d, hb, dropLast2_short hx, broadcast_nil, hz, Bool.true_eq_false, if_false, hb0]
  exact ⟨_, rfl, rfl⟩

/-- **C114** scalar coordinates raise, whatever the table. -/
theorem C114_scalar_raises (align : Bool) (pad : Pad) (x y : Tensor) (z : Tables) (ex0 ex1 ey0 ey1 : ℝ) (hx : x.shape = []) (hy : y.shape = []) :
    ∃ e, interp2d align pad x y z ex0 ex1 ey0 ey1 = .error e := by
  have h1 : broadcast ([] : List ℕ) [] = some [] := rfl
  simp only [interp2d, hx, hy, h1, dropLast2_short (s := []) (by simp)]
  cases expands z.batch []
  · exact ⟨_, rfl⟩
  · exact ⟨_, rfl⟩

theorem expandsRev_length {a b : List ℕ} (h : expandsRev a b = true) : a.length ≤ b.length := by
  induction a generalizing b with
  | nil => simp
  | cons m a ih =>
    cases b with
    | nil => simp [expandsRev] at h
    | cons n b =>
      simp only [expandsRev, Bool.and_eq_true] at h
      simpa using ih h.2

/-- **C114** a batch of tables with more batch dimensions than the coordinates have raises, although the documentation gives them a common batch shape. -/
theorem C114_table_batch_raises (align : Bool) (pad : Pad) (x y : Tensor) (z : Tables) (ex0 ex1 ey0 ey1 : ℝ) (b : List ℕ) (hx : x.shape.length ≤ 2)
    (hb : broadcast x.shape y.shape = some b) (hz : b.length < z.batch.length) :
    interp2d align pad x y z ex0 ex1 ey0 ey1 = .error .runtime := by
  have he : expands z.batch b = false := by
    by_contra h
    rw [Bool.not_eq_false] at h
    have := expandsRev_length h
    simp at this
    omega
  simp only [interp2d, hb, dropLast2_short hx, broadcast_nil, he, if_true]

theorem broadcastRev_self (a : List ℕ) : broadcastRev a a = some a := by
  induction a with
  | nil => rfl
  | cons m a ih => simp [broadcastRev, ih]

theorem broadcast_self (a : List ℕ) : broadcast a a = some a := by simp [broadcast, broadcastRev_self]

/-- **C114** coordinates with three dimensions raise, unless the first and the last are equal or one of them is 1. -/
theorem C114_three_dims_raises (align : Bool) (pad : Pad) (x y : Tensor) (z : Tables) (ex0 ex1 ey0 ey1 : ℝ) (k l m : ℕ) (hx : x.shape = [k, l, m])
    (hy : y.shape = [k, l, m]) (h1 : k ≠ m) (h2 : k ≠ 1) (h3 : m ≠ 1) : interp2d align pad x y z ex0 ex1 ey0 ey1 = .error .runtime := by
  have h4 : broadcast [k, l, m] (dropLast2 [k, l, m]) = none := by
    simp [dropLast2, broadcast, broadcastRev, h1.symm, h2, h3]
  simp only [interp2d, hx, hy, broadcast_self, h4]

/-- **C114** if the last dimension is 1, the result has the wrong shape. -/
theorem C114_three_dims_shape (align : Bool) (pad : Pad) (x y : Tensor) (z : Tables) (ex0 ex1 ey0 ey1 : ℝ) (k l : ℕ) (hx : x.shape = [k, l, 1])
    (hy : y.shape = [k, l, 1]) (h1 : k ≠ 1) (hz : z.batch = []) :
    ∃ r, interp2d align pad x y z ex0 ex1 ey0 ey1 = .ok r ∧ r.shape = [k, l, k] ∧ r.shape ≠ x.shape := by
  have h4 : broadcast [k, l, 1] (dropLast2 [k, l, 1]) = some [k, l, k] := by
    simp [dropLast2, broadcast, broadcastRev, h1, Ne.symm h1]
  have h5 : expands [] [k, l, k] = true := by simp [expands, expandsRev]
  simp only [interp2d, hx, hy, broadcast_self, h4, hz, h5, Bool.true_eq_false, if_false, reduceCtorEq]
  exact ⟨_, rfl, rfl, by simp [h1]⟩

/-- The hypotheses are met: a 3 × 2 table, two points given by row and column coordinates, one inside a cell on the upper edge. -/
example : ∃ x y r : Tensor, ∃ z : Tables, interp2d true .zeros x y z 0 2 0 1 = .ok r ∧ r.shape = [2, 1] ∧ z.nx = 3 ∧ z.ny = 2 ∧
    r.get [1, 0] = 4 := by
  obtain ⟨r, hr, hs⟩ := C114_shape_partial true .zeros ⟨[2, 1], fun i => if i = [1, 0] then 3 / 2 else 2⟩ ⟨[1], fun _ => 1⟩
    ⟨[], 3, 2, fun _ i j => 2 * i + j * ((i : ℝ) ^ 2 - i)⟩ 0 2 0 1 [2, 1] (by simp) rfl (by simp) rfl
  refine ⟨_, _, r, _, hr, hs, rfl, rfl, ?_⟩
  rw [interp2d_ok hr]
  refine gridSample_bilinear true .zeros 3 2 (fun i j => 2 * i + j * ((i : ℝ) ^ 2 - i)) 0 2 0 1 _ _ 4 (by norm_num) (by norm_num)
    ⟨1, 0, 1 / 2, 1, by norm_num, by norm_num, by norm_num, by norm_num, by norm_num, by norm_num, ?_, ?_, ?_⟩
  · norm_num [node, bindex, bindexRev]
  · norm_num [node]
  · norm_num

/-- `C114_aligned_partial`, `C114_default_partial`, `C114_default_corner`: a 3 × 2 table on `[0, 3] × [0, 2]`, one point inside. -/
example : ∃ r, interp2d true .zeros ⟨[1], fun _ => 2⟩ ⟨[1], fun _ => 1⟩ ⟨[], 3, 2, fun _ i j => i * j⟩ 0 3 0 2 = .ok r ∧
    IsBilinear true 3 2 (fun i j => i * j) 0 3 0 2 2 1 (r.get [0]) := by
  obtain ⟨r, hr, -⟩ := C114_shape_partial true .zeros ⟨[1], fun _ => 2⟩ ⟨[1], fun _ => 1⟩
    ⟨[], 3, 2, fun _ i j => i * j⟩ 0 3 0 2 [1] (by simp) rfl (by simp) rfl
  exact ⟨r, hr, C114_aligned_partial _ _ _ r _ _ _ _ _ (by norm_num) (by norm_num) (by norm_num) (by norm_num) hr [0] (by norm_num) (by norm_num)⟩
example : ∃ r, interp2d false .zeros ⟨[1], fun _ => 2⟩ ⟨[1], fun _ => 1⟩ ⟨[], 3, 2, fun _ i j => i * j⟩ 0 3 0 2 = .ok r ∧
    IsBilinear false 3 2 (fun i j => i * j) 0 3 0 2 2 1 (r.get [0]) := by
  obtain ⟨r, hr, -⟩ := C114_shape_partial false .zeros ⟨[1], fun _ => 2⟩ ⟨[1], fun _ => 1⟩
    ⟨[], 3, 2, fun _ i j => i * j⟩ 0 3 0 2 [1] (by simp) rfl (by simp) rfl
  exact ⟨r, hr, C114_default_partial _ _ _ r _ _ _ _ _ (by norm_num) (by norm_num) (by norm_num) (by norm_num) hr [0]
    (by norm_num [node]) (by norm_num [node])⟩
example : ∃ r, interp2d false .zeros ⟨[1], fun _ => 0⟩ ⟨[1], fun _ => 0⟩ ⟨[], 3, 2, fun _ i j => i * j + 8⟩ 0 3 0 2 = .ok r ∧
    r.get [0] = 2 := by
  obtain ⟨r, hr, -⟩ := C114_shape_partial false .zeros ⟨[1], fun _ => 0⟩ ⟨[1], fun _ => 0⟩
    ⟨[], 3, 2, fun _ i j => i * j + 8⟩ 0 3 0 2 [1] (by simp) rfl (by simp) rfl
  exact ⟨r, hr, (C114_default_corner _ _ r _ _ _ _ _ (by norm_num) (by norm_num) hr [0] rfl rfl).trans (by norm_num)⟩

/-- `C114_scalar_raises`, `C114_table_batch_raises`, `C114_three_dims_raises`. -/
example := C114_scalar_raises true .zeros ⟨[], fun _ => 2⟩ ⟨[], fun _ => 1⟩ ⟨[], 3, 2, fun _ i j => i * j⟩ 0 3 0 2 rfl rfl
example := C114_table_batch_raises true .zeros ⟨[5], fun _ => 2⟩ ⟨[5], fun _ => 1⟩ ⟨[4, 5], 3, 2, fun _ i j => i * j⟩ 0 3 0 2 [5]
  (by simp) rfl (by simp)
example := C114_three_dims_raises true .zeros ⟨[2, 3, 4], fun _ => 2⟩ ⟨[2, 3, 4], fun _ => 1⟩ ⟨[], 3, 2, fun _ i j => i * j⟩ 0 3 0 2
  2 3 4 rfl rfl (by norm_num) (by norm_num) (by norm_num)

end Verif.Interp.Grid2d
