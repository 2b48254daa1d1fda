import Verif.Interp.BatchModel

/-! # C133: interpolation on batches is interpolation of every element -/

namespace Verif.Interp.Batch

open Verif.Tensor

/-- A shape that can be expanded to another one is absorbed by it. -/
theorem bc_absorb {s Z : Shape} (h : Le s Z) : bc s Z = some Z :=
  bc_eq_some.2 ⟨⟨h, Le.refl _⟩, fun _ _ h => h⟩

theorem bc_absorb' {s Z : Shape} (h : Le s Z) : bc Z s = some Z := by rw [bc_comm, bc_absorb h]

/-- Three-way broadcasting in the order of the code. -/
theorem bc_three {B V S Z1 Z2 Z : Shape} (h1 : bc B S = some Z1) (h2 : bc V B = some Z2) :
    bc Z2 Z1 = some Z ↔ bcAll [B, V, S] = some Z := by
  rw [bc_eq_some] at h1 h2
  rw [bc_eq_some, bcAll_eq_some]
  simp only [List.mem_cons, List.not_mem_nil, or_false, forall_eq_or_imp, forall_eq]
  constructor
  · rintro ⟨⟨a, b⟩, c⟩
    refine ⟨⟨h1.1.1.trans b, h2.1.1.trans a, h1.1.2.trans b⟩, ?_⟩
    rintro W ⟨d, e, f⟩
    exact c W (h2.2 W e d) (h1.2 W d f)
  · rintro ⟨⟨a, b, c⟩, d⟩
    refine ⟨⟨h2.2 Z b a, h1.2 Z a c⟩, fun W e f => ?_⟩
    exact d W ⟨h1.1.1.trans f, h2.1.1.trans e, h1.1.2.trans f⟩

theorem at_diff (l : List ℝ) (j : ℕ) (h : j + 1 < l.length) : at' (diff l) j = at' l (j + 1) - at' l j := by
  induction l generalizing j with
  | nil => simp at h
  | cons a l ih =>
    cases l with
    | nil => simp at h
    | cons b l =>
      cases j with
      | zero => simp [diff, at']
      | succ j =>
        have := ih j (by simpa using h)
        simpa [diff, at'] using this

theorem diff_length : ∀ l : List ℝ, (diff l).length = l.length - 1
  | [] => rfl
  | [_] => rfl
  | a :: b :: l => by
    have := diff_length (b :: l)
    simp [diff, this]

theorem at_dydx (xs ys : List ℝ) (j : ℕ) (hx : j + 1 < xs.length) (hy : j + 1 < ys.length) :
    at' (dydx xs ys) j = (at' ys (j + 1) - at' ys j) / (at' xs (j + 1) - at' xs j) := by
  rw [← at_diff _ _ hx, ← at_diff _ _ hy]
  unfold dydx at'
  have h1 : j < (diff ys).length := by rw [diff_length]; omega
  have h2 : j < (diff xs).length := by rw [diff_length]; omega
  rw [List.getD_eq_getElem _ _ (by simp [h1, h2]), List.getD_eq_getElem _ _ h1, List.getD_eq_getElem _ _ h2]
  simp

theorem at_row (t : Tens ℝ) (n : ℕ) (i : List ℕ) (j : ℕ) (h : j < n) : at' (row t n i) j = t.get (j :: i) := by
  unfold at' row
  rw [List.getD_eq_getElem _ _ (by simpa using h)]
  simp

theorem row_length {α : Type} (t : Tens α) (n : ℕ) (i : List ℕ) : (row t n i).length = n := by simp [row]

theorem projectOne_lt {g : List ℝ} (h : 2 ≤ g.length) (x : ℝ) : projectOne g x + 1 < g.length := by
  unfold projectOne; omega

variable {X Y x : Tens ℝ} {n : ℕ} {B V C : Shape}

theorem proj_ones_zero {B : Shape} {k : ℕ} {i : List ℕ} : proj ((1 :: B)) (k :: i) = 0 :: proj B i := by simp [proj]

/-- The whole call, for shapes that broadcast: shape and entries. -/
theorem call_run (hX : X.shape = n :: B) (hY : Y.shape = n :: (C ++ V)) (hn : 2 ≤ n) {Z1 Z2 Z : Shape}
    (h1 : bc B x.shape = some Z1) (h2 : bc V B = some Z2) (h3 : bc Z2 Z1 = some Z) :
    ∃ r, Lin.call ⟨X, Y, C.length⟩ x = .ok r ∧ r.shape = C ++ Z ∧ ∀ c i, Valid C c → i.length = Z.length →
      r.get (c ++ i) = linear1d (row X n (proj B i)) (row Y n (c ++ proj V i)) (x.get (proj x.shape i)) := by
  have hall := (bc_three h1 h2).1 h3
  have hle := bcAll_le hall
  have hB : Le B Z := hle B (by simp)
  have hV : Le V Z := hle V (by simp)
  have hS : Le x.shape Z := hle x.shape (by simp)
  have hZ1 := bc_eq_some.1 h1
  have hZ2 := bc_eq_some.1 h2
  have hZ := bc_eq_some.1 h3
  obtain ⟨Z4, h4, h4'⟩ := bc_of_le hV hZ.1.2
  have h5 : bc B Z1 = some Z1 := bc_absorb hZ1.1.1
  have h6 : bc x.shape Z1 = some Z1 := bc_absorb hZ1.1.2
  have h7 : bc Z1 Z = some Z := bc_absorb hZ.1.2
  have h8 : bc Z4 Z = some Z := bc_absorb h4'
  have e1 : bc (C ++ V) (List.replicate C.length 1 ++ B) = some (C ++ Z2) := by rw [bc_append_ones, h2]; rfl
  have e2 : bc (C ++ Z2) (List.replicate C.length 1 ++ Z1) = some (C ++ Z) := by rw [bc_append_ones, h3]; rfl
  have e3 : bc (C ++ V) (List.replicate C.length 1 ++ Z1) = some (C ++ Z4) := by rw [bc_append_ones, h4]; rfl
  have e4 : bc (List.replicate C.length 1 ++ Z1) (C ++ Z) = some (C ++ Z) := by rw [bc_ones_append, h7]; rfl
  have e5 : bc (C ++ Z4) (C ++ Z) = some (C ++ Z) := by rw [bc_append_same, h8]; rfl
  refine ⟨?res, ?hrun, ?hshape, ?hget⟩
  case hrun =>
    simp only [Lin.call, Lin.derivative, Lin.dydx, projectOneT, gatherLast, map2, lastDim, unsqueezeLast, unsqueezeChannels,
      diffLast, squeezeLast, hX, hY, orRuntime, bind, Except.bind, pure, Except.pure, h1, e1, e2, e3, e4, e5, h5, h6, bc,
      List.take_succ_cons, List.take_zero, List.drop_succ_cons, List.drop_zero, List.cons_append, List.nil_append,
      List.headD_cons, List.tail_cons, ↓reduceIte, Option.map_some]
    rfl
  case hshape => rfl
  case hget =>
    intro c i hc hi
    have hcl : c.length = C.length := hc.length_eq
    have hpC : proj C c = c := proj_valid hc
    have hlen : ∀ {W}, Le W Z → W.length ≤ i.length := fun h => by rw [hi]; exact h.length
    have hC : ∀ W j, proj (C ++ W) (c ++ j) = c ++ proj W j := fun W j => by rw [proj_append hcl.symm, hpC]
    have hR : ∀ W j, proj (List.replicate C.length 1 ++ W) (c ++ j) = List.replicate C.length 0 ++ proj W j :=
      fun W j => by rw [proj_append (by simp [hcl]), proj_ones hcl.symm]
    have hR0 : ∀ W j, proj (List.replicate C.length 1 ++ W) (List.replicate C.length 0 ++ j) =
        List.replicate C.length 0 ++ proj W j :=
      fun W j => by rw [proj_append (by simp), proj_ones (by simp)]
    have hD : ∀ (k : ℕ) (l : List ℕ), (k :: (List.replicate C.length 0 ++ l)).drop (1 + C.length) = l := fun k l => by
      rw [Nat.add_comm, List.drop_succ_cons]
      exact List.drop_left' (by simp)
    have q1 : ∀ {W}, Le W Z → proj W (proj Z i) = proj W i := fun h => proj_proj h (by omega)
    have q2 : ∀ {W}, Le W Z1 → proj W (proj Z1 i) = proj W i := fun h => proj_proj h (hlen hZ.1.2)
    have q3 : ∀ {W}, Le W Z2 → proj W (proj Z2 i) = proj W i := fun h => proj_proj h (hlen hZ.1.1)
    have q4 : ∀ {W}, Le W Z4 → proj W (proj Z4 i) = proj W i := fun h => proj_proj h (hlen h4')
    have hP := projectOne_lt (g := row X n (proj B i)) (by rwa [row_length]) (x.get (proj x.shape i))
    rw [row_length] at hP
    simp only [proj_ones_zero, hC, hR, hR0, hD, List.headD_cons, List.tail_cons, List.take_succ_cons, List.take_zero,
      List.cons_append, List.nil_append, q1 (Le.refl _), q1 hZ.1.2, q1 hZ.1.1, q1 h4', q1 hB, q1 hV, q1 hS, q2 (Le.refl _),
      q2 hZ1.1.1, q2 hZ1.1.2, q3 hZ2.1.1, q3 hZ2.1.2, q4 (bc_eq_some.1 h4).1.1, q4 (bc_eq_some.1 h4).1.2]
    unfold linear1d derivative
    rw [at_dydx _ _ _ (by rwa [row_length]) (by rwa [row_length])]
    generalize projectOne (row X n (proj B i)) (x.get (proj x.shape i)) = P at hP ⊢
    have hH : ∀ W j, proj ((n - 1) :: W) (P :: j) = P :: proj W j := fun W j => by
      simp only [proj]
      congr 1
      split_ifs <;> omega
    simp only [at_row _ _ _ _ hP, at_row _ _ _ _ (by omega : P < n), hH, hC, hR, hD, List.headD_cons, List.tail_cons,
      List.take_succ_cons, List.take_zero, List.cons_append, List.nil_append, q3 hZ2.1.1, q3 hZ2.1.2]

/-- Shapes that do not broadcast. -/
theorem call_fail (hX : X.shape = n :: B) (hY : Y.shape = n :: (C ++ V)) {Z2 : Shape} (h2 : bc V B = some Z2)
    (h : bcAll [B, V, x.shape] = none) : Lin.call ⟨X, Y, C.length⟩ x = .error .runtime := by
  rcases h1 : bc B x.shape with _ | Z1
  · simp [Lin.call, Lin.derivative, projectOneT, lastDim, unsqueezeLast, hX, orRuntime, bind, Except.bind, h1]
  · have h3 : bc Z2 Z1 = none := by
      rcases h3 : bc Z2 Z1 with _ | Z
      · rfl
      · rw [(bc_three h1 h2).1 h3] at h; cases h
    have e1 : bc (C ++ V) (List.replicate C.length 1 ++ B) = some (C ++ Z2) := by rw [bc_append_ones, h2]; rfl
    have e2 : bc (C ++ Z2) (List.replicate C.length 1 ++ Z1) = none := by rw [bc_append_ones, h3]; rfl
    simp only [Lin.call, Lin.derivative, Lin.dydx, projectOneT, gatherLast, map2, lastDim, unsqueezeLast, unsqueezeChannels,
      diffLast, hX, hY, orRuntime, bind, Except.bind, pure, Except.pure, h1, e1, e2, bc,
      List.take_succ_cons, List.take_zero, List.drop_succ_cons, List.drop_zero, List.cons_append, List.nil_append,
      List.headD_cons, List.tail_cons, ↓reduceIte, Option.map_some]

theorem new_run (hX : X.shape = n :: B) (hY : Y.shape = n :: (C ++ V)) :
    Lin.new X Y C.length = (match bc V B with | some _ => .ok ⟨X, Y, C.length⟩ | none => .error .runtime) := by
  have h : bcAll [B, V] = bc V B := by rw [bc_comm]; cases V <;> cases B <;> simp [bcAll, bc]
  have h0 : ¬ ((C.length : ℤ) < 0) := by omega
  simp only [Lin.new, init, lastDims, lastDim, hX, hY, bind, Except.bind, pure, Except.pure, List.reverse_cons,
    List.reverse_nil, List.nil_append, List.length_cons, List.length_nil, Nat.zero_add, List.take_succ_cons, List.take_zero,
    List.drop_succ_cons, List.drop_zero, ne_eq, not_true_eq_false, ↓reduceIte, h0, Int.toNat_natCast, List.cons_append,
    List.drop_left, List.take_left, h]
  cases bc V B <;> rfl

/-- **C133** `Linear1dInterpolator(x0, y0, channel_ndim)(x)`: with grids of shape `(B..., n)`, values of shape
`(V..., C..., n)` and points of shape `S`, the result has the shape `(Z..., C...)`, `Z` being the broadcast of `B`, `V` and
`S`, and every entry is the interpolation of the one grid, the one row of values and the one point that belong to its
index. -/
theorem C133_linear1d (hX : X.shape = n :: B) (hY : Y.shape = n :: (C ++ V)) (hn : 2 ≤ n) {Z : Shape}
    (hZ : bcAll [B, V, x.shape] = some Z) :
    ∃ L r, Lin.new X Y C.length = .ok L ∧ L.call x = .ok r ∧ r.shape = C ++ Z ∧
      ∀ c i, Valid C c → Valid Z i →
        r.get (c ++ i) = linear1d (row X n (proj B i)) (row Y n (c ++ proj V i)) (x.get (proj x.shape i)) := by
  have hle := bcAll_le hZ
  obtain ⟨Z1, h1, -⟩ := bc_of_le (hle B (by simp)) (hle x.shape (by simp))
  obtain ⟨Z2, h2, -⟩ := bc_of_le (hle V (by simp)) (hle B (by simp))
  obtain ⟨r, hr, hs, hg⟩ := call_run hX hY hn h1 h2 ((bc_three h1 h2).2 hZ)
  exact ⟨_, r, by rw [new_run hX hY, h2], hr, hs, fun c i hc hi => hg c i hc hi.length_eq⟩

/-- **C133** shapes that do not broadcast together raise `RuntimeError`, either at construction or at the call. -/
theorem C133_linear1d_raises (hX : X.shape = n :: B) (hY : Y.shape = n :: (C ++ V)) (hZ : bcAll [B, V, x.shape] = none) :
    (do let L ← Lin.new X Y C.length; L.call x) = .error .runtime := by
  rw [new_run hX hY]
  rcases h2 : bc V B with _ | Z2
  · rfl
  · exact call_fail hX hY h2 hZ

/-- **C133** a grid and values of different lengths raise `AssertionError`. -/
theorem C133_linear1d_assertion {m : ℕ} {R : Shape} (hX : X.shape = n :: B) (hY : Y.shape = m :: R) (h : m ≠ n) (k : ℤ) :
    Lin.new X Y k = .error .assertion := by
  simp [Lin.new, init, lastDims, lastDim, hX, hY, bind, Except.bind, pure, Except.pure, h]

/-- **C133** the default `channel_ndim` takes every dimension of the values but the last for a channel. -/
theorem C133_linear1d_default {R : Shape} (hX : X.shape = n :: B) (hY : Y.shape = n :: R) :
    Lin.new X Y (-1) = Lin.new X Y R.length := by
  have h0 : ¬ ((R.length : ℤ) < 0) := by omega
  simp [Lin.new, init, lastDims, lastDim, hX, hY, bind, Except.bind, pure, Except.pure, h0]

/-- **C133** in particular, by default, a batch of grids with a batch of values of the same shape gives the interpolation of
*every* row of values on *every* grid, not row by row. -/
theorem C133_linear1d_default_outer (hX : X.shape = n :: B) (hY : Y.shape = n :: B) (hx : x.shape = B) (hn : 2 ≤ n) :
    ∃ L r, Lin.new X Y (-1) = .ok L ∧ L.call x = .ok r ∧ r.shape = B ++ B ∧
      ∀ c i, Valid B c → Valid B i → r.get (c ++ i) = linear1d (row X n i) (row Y n c) (x.get i) := by
  have hZ : bcAll [B, [], x.shape] = some B := bcAll_eq_some.2 ⟨by simp [hx, Le.refl, Le], fun W h => h B (by simp)⟩
  obtain ⟨L, r, h1, h2, h3, h4⟩ := C133_linear1d (C := B) (V := []) hX (by simpa using hY) hn hZ
  refine ⟨L, r, by rw [C133_linear1d_default hX hY, h1], h2, h3, fun c i hc hi => ?_⟩
  rw [h4 c i hc hi, hx, proj_valid hi]
  simp [proj]

/-- Two grids of three points, two channels of values shared between them, four points for every grid: the result has the
shape `(4, 2, 2)`. -/
example (X Y x : Tens ℝ) (hX : X.shape = [3, 2]) (hY : Y.shape = [3, 2]) (hx : x.shape = [2, 4]) :
    ∃ L r, Lin.new X Y 1 = .ok L ∧ L.call x = .ok r ∧ r.shape = [2, 2, 4] ∧ ∀ c b i, c < 2 → b < 2 → i < 4 →
      r.get [c, b, i] = linear1d [X.get [0, b], X.get [1, b], X.get [2, b]] [Y.get [0, c], Y.get [1, c], Y.get [2, c]]
        (x.get [b, i]) := by
  obtain ⟨L, r, h1, h2, h3, h4⟩ := C133_linear1d (x := x) (n := 3) (B := [2]) (C := [2]) (V := []) (Z := [2, 4]) hX hY (by omega)
    (by rw [hx]; decide)
  refine ⟨L, r, h1, h2, h3, fun c b i hc hb hi => ?_⟩
  have := h4 [c] [b, i] (.cons hc .nil) (.cons hb (.cons hi .nil))
  simpa [row, proj, hx, List.range_succ] using this

/-- Two grids and five points in a row do not broadcast. -/
example (X Y x : Tens ℝ) (hX : X.shape = [3, 2]) (hY : Y.shape = [3, 2]) (hx : x.shape = [5]) :
    (do let L ← Lin.new X Y 1; L.call x) = .error .runtime :=
  C133_linear1d_raises (n := 3) (B := [2]) (C := [2]) (V := []) hX hY (by rw [hx]; decide)

/-- `C133_linear1d_assertion`, `C133_linear1d_default`. -/
example (g h : List ℕ → ℝ) := C133_linear1d_assertion (X := ⟨[3], g⟩) (Y := ⟨[4, 2], h⟩) (n := 3) (m := 4) (B := []) (R := [2]) rfl rfl (by norm_num) (-1)
example (g h : List ℕ → ℝ) := C133_linear1d_default (X := ⟨[3], g⟩) (Y := ⟨[3, 2], h⟩) (n := 3) (B := []) (R := [2]) rfl rfl

end Verif.Interp.Batch
