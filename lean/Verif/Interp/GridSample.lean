import Mathlib.Data.Real.Basic
import Mathlib.Algebra.Order.Floor.Ring
import Mathlib.Algebra.Order.Archimedean.Real.Basic
import Mathlib.Tactic.Linarith
import Mathlib.Tactic.Ring
import Mathlib.Tactic.FieldSimp
import Mathlib.Tactic.Positivity

/-! # Model of `phytorch/interpolate/__init__.py`: `interp2d`

Exact reals. `torch.nn.functional.grid_sample` is modelled for `mode='bilinear'` with `padding_mode` `'zeros'` (the default) or
`'border'`, and `align_corners` false (the default) or true. Tensors are a shape and a function of the index; `flatten` and
`reshape` (interpolate/__init__.py:25-32), which only relabel the batch index in row-major order and back, are not represented. -/

namespace Verif.Interp.Grid2d

/-- `RuntimeError` (shapes) and `IndexError` (dimension out of range). -/
inductive Err | runtime | index
  deriving DecidableEq, Repr

inductive Pad | zeros | border
  deriving DecidableEq, Repr

/-! ### `grid_sample` (torch) -/

/-- From normalised coordinates in [-1, 1] to pixels. -/
noncomputable def unnormalize (align : Bool) (size : ℕ) (g : ℝ) : ℝ :=
  if align then (g + 1) / 2 * ((size : ℝ) - 1) else ((g + 1) * size - 1) / 2

/-- `padding_mode`. -/
noncomputable def clip (pad : Pad) (size : ℕ) (ix : ℝ) : ℝ :=
  match pad with
  | .zeros => ix
  | .border => min ((size : ℝ) - 1) (max ix 0)

/-- A pixel, or 0 out of bounds. `img h w`, `h < H`, `w < W`. -/
def pixel (H W : ℕ) (img : ℕ → ℕ → ℝ) (h w : ℤ) : ℝ :=
  if 0 ≤ h ∧ h < H ∧ 0 ≤ w ∧ w < W then img h.toNat w.toNat else 0

/-- Bilinear sampling at normalised coordinates `(gx, gy)`: `gx` along the width. -/
noncomputable def gridSample (align : Bool) (pad : Pad) (H W : ℕ) (img : ℕ → ℕ → ℝ) (gx gy : ℝ) : ℝ :=
  let ix := clip pad W (unnormalize align W gx)
  let iy := clip pad H (unnormalize align H gy)
  let x0 := ⌊ix⌋
  let y0 := ⌊iy⌋
  pixel H W img y0 x0 * ((x0 + 1 - ix) * (y0 + 1 - iy)) + pixel H W img y0 (x0 + 1) * ((ix - x0) * (y0 + 1 - iy)) +
    pixel H W img (y0 + 1) x0 * ((x0 + 1 - ix) * (iy - y0)) + pixel H W img (y0 + 1) (x0 + 1) * ((ix - x0) * (iy - y0))

/-! ### Shapes -/

/-- `torch.broadcast_shapes` of two shapes, reversed (last dimension first). -/
def broadcastRev : List ℕ → List ℕ → Option (List ℕ)
  | [], b => some b
  | a, [] => some a
  | m :: a, n :: b =>
    if m = n ∨ n = 1 then (broadcastRev a b).map (m :: ·) else if m = 1 then (broadcastRev a b).map (n :: ·) else none

/-- `torch.broadcast_shapes`. -/
def broadcast (a b : List ℕ) : Option (List ℕ) := (broadcastRev a.reverse b.reverse).map List.reverse

/-- Whether a shape can be `expand`ed to another (reversed shapes). -/
def expandsRev : List ℕ → List ℕ → Bool
  | [], _ => true
  | _ :: _, [] => false
  | m :: a, n :: b => (m == n || m == 1) && expandsRev a b

/-- `t.expand(*shape)` succeeds. -/
def expands (a b : List ℕ) : Bool := expandsRev a.reverse b.reverse

/-- `s[:-2]`. -/
def dropLast2 (s : List ℕ) : List ℕ := s.take (s.length - 2)

/-- The index of the element of a tensor of shape `s` that is broadcast to position `i` (reversed). -/
def bindexRev : List ℕ → List ℕ → List ℕ
  | [], _ => []
  | _ :: _, [] => []
  | m :: s, i :: is => (if m = 1 then 0 else i) :: bindexRev s is

@[inherit_doc bindexRev] def bindex (s i : List ℕ) : List ℕ := (bindexRev s.reverse i.reverse).reverse

/-- A tensor of reals. -/
structure Tensor where
  shape : List ℕ
  get : List ℕ → ℝ

/-- The argument `z` of `interp2d`: a batch of tables `N_x × N_y`. -/
structure Tables where
  batch : List ℕ
  nx : ℕ
  ny : ℕ
  get : List ℕ → ℕ → ℕ → ℝ

/-- `2 * (x - extent[0]) / (extent[1] - extent[0]) - 1` (interpolate/__init__.py:28-29). -/
noncomputable def normalise (e0 e1 x : ℝ) : ℝ := 2 * (x - e0) / (e1 - e0) - 1

/-- `interp2d(x, y, z, extent_x, extent_y, **kwargs)` (interpolate/__init__.py:9-32). The batch shape is that of `x` and `y`, broadcast with
`x.shape[:-2]` (line 24). `z.unsqueeze(-3).expand(*batch_shape, 1, N_x, N_y)` raises unless the batch shape of `z` expands to it; `flatten(end_dim=-4)` of
the result raises `IndexError` when the batch shape is empty; `swapaxes(-2, -1)` makes the table an image of height `N_y` and width `N_x`. -/
noncomputable def interp2d (align : Bool) (pad : Pad) (x y : Tensor) (z : Tables) (ex0 ex1 ey0 ey1 : ℝ) : Except Err Tensor :=
  match broadcast x.shape y.shape with
  | none => .error .runtime
  | some b => match broadcast b (dropLast2 x.shape) with
    | none => .error .runtime
    | some bs =>
      if expands z.batch bs = false then .error .runtime
      else if bs = [] then .error .index
      else .ok ⟨bs, fun i => gridSample align pad z.ny z.nx (fun h w => z.get (bindex z.batch i) w h)
        (normalise ex0 ex1 (x.get (bindex x.shape i))) (normalise ey0 ey1 (y.get (bindex y.shape i)))⟩

/-! ### Specification -/

/-- The node `i` of a regular grid of `n` points that spans the extent (`align = true`), or of the centres of `n` equal cells into which the extent is
divided (`align = false`). -/
noncomputable def node (align : Bool) (e0 e1 : ℝ) (n : ℕ) (i : ℝ) : ℝ :=
  if align then e0 + i * ((e1 - e0) / ((n : ℝ) - 1)) else e0 + (i + 1 / 2) * ((e1 - e0) / n)

/-- `v` is the bilinear interpolant of the table at `(x, y)`: in the cell between nodes `i, i+1` and `j, j+1`, in which `(x, y)` has the relative
coordinates `(s, t)`. -/
def IsBilinear (align : Bool) (nx ny : ℕ) (tab : ℕ → ℕ → ℝ) (ex0 ex1 ey0 ey1 x y v : ℝ) : Prop :=
  ∃ (i j : ℕ) (s t : ℝ), i + 1 < nx ∧ j + 1 < ny ∧ 0 ≤ s ∧ s ≤ 1 ∧ 0 ≤ t ∧ t ≤ 1 ∧
    x = (1 - s) * node align ex0 ex1 nx i + s * node align ex0 ex1 nx (i + 1) ∧
    y = (1 - t) * node align ey0 ey1 ny j + t * node align ey0 ey1 ny (j + 1) ∧
    v = (1 - s) * (1 - t) * tab i j + s * (1 - t) * tab (i + 1) j + (1 - s) * t * tab i (j + 1) + s * t * tab (i + 1) (j + 1)

/-! ### Values -/

/-- Linear interpolation of a function on the integers. -/
noncomputable def lin (f : ℤ → ℝ) (u : ℝ) : ℝ := f ⌊u⌋ * (⌊u⌋ + 1 - u) + f (⌊u⌋ + 1) * (u - ⌊u⌋)

theorem lin_eq (f : ℤ → ℝ) (i : ℤ) (s : ℝ) (h0 : 0 ≤ s) (h1 : s ≤ 1) : lin f (i + s) = (1 - s) * f i + s * f (i + 1) := by
  rcases h1.lt_or_eq with h | rfl
  · have : ⌊(i : ℝ) + s⌋ = i := by
      rw [Int.floor_eq_iff]; constructor <;> linarith
    rw [lin, this]; ring
  · have : ⌊(i : ℝ) + 1⌋ = i + 1 := by
      rw [Int.floor_eq_iff]; push_cast; constructor <;> linarith
    rw [lin, this]; push_cast; ring

theorem gridSample_eq_lin (align : Bool) (pad : Pad) (H W : ℕ) (img : ℕ → ℕ → ℝ) (gx gy : ℝ) :
    gridSample align pad H W img gx gy = lin (fun w => lin (fun h => pixel H W img h w) (clip pad H (unnormalize align H gy)))
      (clip pad W (unnormalize align W gx)) := by
  simp only [gridSample, lin]
  ring

theorem unnormalize_node (align : Bool) (e0 e1 : ℝ) (he : e0 ≠ e1) (n i : ℕ) (hn : i + 1 < n) (s : ℝ) :
    unnormalize align n (normalise e0 e1 ((1 - s) * node align e0 e1 n i + s * node align e0 e1 n (i + 1))) = i + s := by
  have h1 : e1 - e0 ≠ 0 := sub_ne_zero.mpr he.symm
  have h2 : (n : ℝ) ≠ 0 := by have : n ≠ 0 := by omega
                              exact_mod_cast this
  have h3 : (n : ℝ) - 1 ≠ 0 := by
    have : (1 : ℝ) < n := by exact_mod_cast (by omega : 1 < n)
    linarith
  cases align
  · simp only [unnormalize, normalise, node, Bool.false_eq_true, if_false]
    field_simp
    ring
  · simp only [unnormalize, normalise, node, if_true]
    field_simp
    ring

theorem clip_eq (pad : Pad) (n i : ℕ) (hn : i + 1 < n) (s : ℝ) (h0 : 0 ≤ s) (h1 : s ≤ 1) : clip pad n ((i : ℝ) + s) = i + s := by
  cases pad
  · rfl
  · have h2 : ((i + 1 : ℕ) : ℝ) + 1 ≤ n := by exact_mod_cast hn
    push_cast at h2
    simp only [clip]
    rw [max_eq_left (by positivity), min_eq_right (by linarith)]

theorem gridSample_bilinear (align : Bool) (pad : Pad) (nx ny : ℕ) (tab : ℕ → ℕ → ℝ) (ex0 ex1 ey0 ey1 x y v : ℝ) (hx : ex0 ≠ ex1)
    (hy : ey0 ≠ ey1) (h : IsBilinear align nx ny tab ex0 ex1 ey0 ey1 x y v) :
    gridSample align pad ny nx (fun h w => tab w h) (normalise ex0 ex1 x) (normalise ey0 ey1 y) = v := by
  obtain ⟨i, j, s, t, hi, hj, s0, s1, t0, t1, rfl, rfl, rfl⟩ := h
  rw [gridSample_eq_lin, unnormalize_node align ex0 ex1 hx nx i hi, unnormalize_node align ey0 ey1 hy ny j hj, clip_eq pad nx i hi s s0 s1,
    clip_eq pad ny j hj t t0 t1]
  have e1 : ((i : ℕ) : ℝ) = ((i : ℤ) : ℝ) := by simp
  have e2 : ((j : ℕ) : ℝ) = ((j : ℤ) : ℝ) := by simp
  rw [e1, e2, lin_eq _ _ _ s0 s1, lin_eq _ _ _ t0 t1, lin_eq _ _ _ t0 t1]
  have p : ∀ a b : ℕ, a < ny → b < nx → pixel ny nx (fun h w => tab w h) a b = tab b a := fun a b ha hb => by
    simp only [pixel]
    rw [if_pos ⟨by omega, by omega, by omega, by omega⟩]
    simp
  have p00 := p j i (by omega) (by omega)
  have p01 := p j (i + 1) (by omega) (by omega)
  have p10 := p (j + 1) i (by omega) (by omega)
  have p11 := p (j + 1) (i + 1) (by omega) (by omega)
  push_cast at p00 p01 p10 p11
  rw [p00, p01, p10, p11]
  ring

/-- Every point between two nodes of a regular grid lies in a cell. -/
theorem exists_cell (align : Bool) (e0 e1 : ℝ) (he : e0 < e1) (n : ℕ) (hn : 2 ≤ n) (x : ℝ) (h0 : node align e0 e1 n 0 ≤ x)
    (h1 : x ≤ node align e0 e1 n ((n : ℝ) - 1)) : ∃ (i : ℕ) (s : ℝ), i + 1 < n ∧ 0 ≤ s ∧ s ≤ 1 ∧
      x = (1 - s) * node align e0 e1 n i + s * node align e0 e1 n (i + 1) := by
  -- the node function is affine: node i = node 0 + i d with d > 0
  obtain ⟨d, hd, hnode⟩ : ∃ d > 0, ∀ i, node align e0 e1 n i = node align e0 e1 n 0 + i * d := by
    have h2 : (2 : ℝ) ≤ n := by exact_mod_cast hn
    cases align
    · refine ⟨(e1 - e0) / n, div_pos (by linarith) (by linarith), fun i => ?_⟩
      simp only [node, Bool.false_eq_true, if_false]; ring
    · refine ⟨(e1 - e0) / (n - 1), div_pos (by linarith) (by linarith), fun i => ?_⟩
      simp only [node, if_true]; ring
  set a := node align e0 e1 n 0
  set u := (x - a) / d with hu
  have hux : x = a + u * d := by rw [hu]; field_simp; ring
  have hu0 : 0 ≤ u := div_nonneg (by linarith) hd.le
  have hu1 : u ≤ n - 1 := by
    rw [hnode] at h1
    rw [hux] at h1
    nlinarith
  rcases hu1.lt_or_eq with h | h
  · refine ⟨⌊u⌋₊, u - ⌊u⌋₊, ?_, ?_, ?_, ?_⟩
    · have := Nat.floor_le hu0
      have h3 : ((⌊u⌋₊ + 1 : ℕ) : ℝ) < n := by push_cast; linarith
      exact_mod_cast h3
    · linarith [Nat.floor_le hu0]
    · linarith [Nat.lt_floor_add_one u]
    · rw [hnode ⌊u⌋₊, hnode (⌊u⌋₊ + 1), hux]; ring
  · refine ⟨n - 2, 1, by omega, zero_le_one, le_rfl, ?_⟩
    have h3 : ((n - 2 : ℕ) : ℝ) = n - 2 := by rw [Nat.cast_sub hn]; simp
    rw [hnode (_ + 1), h3, hux, h]; ring

end Verif.Interp.Grid2d
