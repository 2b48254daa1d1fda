import Verif.Interp.BatchNd
import Verif.Interp.SplineW

/-! # C135, C136: splines on batches

`torch.linalg.solve`, `torch.Tensor.inverse` and `torch.einsum` are taken as documented: the first two work on every matrix
of a batch, the last broadcasts the dimensions of the ellipses, aligned at the last one. The dimensions of the polynomials
and of the knots are kept inside the entries, as lists. -/

namespace Verif.Interp.Batch

open Verif.Tensor

/-! ### Model -/

/-- `pick_poly` (splines.py:120-138). -/
noncomputable def pickPolyT (x0 x : Tens ℝ) : Except Err (Tens ℕ) := do
  let (m, s) ← lastDim x.shape
  let (n, b) ← lastDim x0.shape
  let Z ← orRuntime (bc b s)
  return ⟨m :: Z, fun i => pickPoly (row x0 n (proj b i.tail)) (x.get (i.headD 0 :: proj s i.tail))⟩

/-- What `torch.linalg.solve(X0, Y0(y0).unsqueeze(-1)).squeeze(-1)` (splines.py:140-175) may return for knots of shape
`(B..., n)` and values of shape `(V..., m)`: it raises if `m` is not `n` or if the batch dimensions do not broadcast; otherwise
a tensor with the solution for every batch index. -/
def SolvesT (x0 y0 : Tens ℝ) (degree : ℕ) (out : Except Err (Tens (List ℝ))) : Prop :=
  match x0.shape, y0.shape with
  | n :: b, m :: v =>
    if m ≠ n then out = .error .runtime
    else match bc b v with
      | none => out = .error .runtime
      | some Z => ∃ c, out = .ok c ∧ c.shape = Z ∧
        ∀ i, Valid Z i → Solves (row x0 n (proj b i)) degree (row y0 n (proj v i)) (c.get i)
  | _, _ => out = .error .index

/-- `broadcast_gather(coeffs, -2, idx).movedim(-1, 0)` (splines.py:202-203): the coefficients for every point. -/
noncomputable def gatherBlock (degree : ℕ) (c : Tens (List ℝ)) (idx : Tens ℕ) : Except Err (Tens (List ℝ)) := do
  let (m, s) ← lastDim idx.shape
  let Z ← orRuntime (bc c.shape s)
  return ⟨m :: Z, fun i => block degree (c.get (proj c.shape i.tail)) (idx.get (i.headD 0 :: proj s i.tail))⟩

/-- `evaluate` (splines.py:227-244), `coeffs` being what the solver returned. -/
noncomputable def evaluateT (degree : ℕ) (x0 x : Tens ℝ) (coeffs : Except Err (Tens (List ℝ))) : Except Err (Tens ℝ) := do
  let idx ← pickPolyT x0 x
  let c ← coeffs
  let b ← gatherBlock degree c idx
  orRuntime (map2 polyval b x)

/-- `weights` (splines.py:205-225): `inv` is `X0.inverse()` for every batch index of the knots; the knots' dimension is inside
the entries. -/
noncomputable def weightsT (degree : ℕ) (x0 : Tens ℝ) (inv : Tens (List (List ℝ))) (x : Tens ℝ) :
    Except Err (Tens (List ℝ)) := do
  let idx ← pickPolyT x0 x
  let (m, s) ← lastDim idx.shape
  let (n, b) ← lastDim x0.shape
  let Z ← orRuntime (bc b s)
  let blocks : Tens (List (List ℝ)) := ⟨m :: Z, fun i =>
    (Acols (row x0 n (proj b i.tail)) (inv.get (proj b i.tail))).map fun col =>
      block degree col (idx.get (i.headD 0 :: proj s i.tail))⟩
  orRuntime (map2 (fun bs x => bs.map fun b => polyval b x) blocks x)

/-- The weights of all dimensions. -/
noncomputable def weightsAll (degree : ℕ) : List (Tens ℝ) → List (Tens (List (List ℝ))) → List (Tens ℝ) →
    Except Err (List (Tens (List ℝ)))
  | x0 :: x0s, inv :: invs, x :: xs => do
    let w ← weightsT degree x0 inv x
    let ws ← weightsAll degree x0s invs xs
    return w :: ws
  | _, _, _ => .ok []

/-- `torch.einsum(w_1, [..., 0], ..., w_d, [..., d-1], y0, [..., 0, ..., d-1])` (splines.py:298-300): the ellipsis of `w_k` stands
for all dimensions of the points, the one of `y0` for its leading dimensions; sizes of equal labels must agree (torch also accepts a size of one there, which is not modelled; they do agree when `sh`,
the sizes of the grids, are the last dimensions of `y0`). -/
noncomputable def einsumT (sh : List ℕ) (ws : List (Tens (List ℝ))) (y0 : Tens ℝ) : Except Err (Tens ℝ) :=
  if y0.shape.take sh.length ≠ sh.reverse then .error .runtime
  else do
    let v := y0.shape.drop sh.length
    let Z ← orRuntime (bcAll (ws.map (·.shape) ++ [v]))
    return ⟨Z, fun i => einsum (ws.map fun w => w.get (proj w.shape i)) fun idx => y0.get (idx.reverse ++ proj v i)⟩

/-- `SplineNd(*x0s, degree).evaluate(y0, *xs)` (splines.py:269-300). `zip` stops at the shorter list, so as many points as knots are
assumed. The constructor's `broadcast_shapes` (splines.py:272) raises if the knots' batch shapes do not broadcast. -/
noncomputable def splineNd (degree : ℕ) (x0s : List (Tens ℝ)) (invs : List (Tens (List (List ℝ)))) (y0 : Tens ℝ)
    (xs : List (Tens ℝ)) : Except Err (Tens ℝ) := do
  let (ns, bs) ← lastDims (x0s.map (·.shape))
  let _ ← orRuntime (bcAll bs)
  let ws ← weightsAll degree x0s invs xs
  einsumT ns ws y0

/-! ### `Spline.evaluate` -/

variable {x0 y0 x : Tens ℝ} {n m degree : ℕ} {B V S Z : Shape}

/-- **C135** `Spline(x0, degree).evaluate(x, y0)` with knots of shape `(B..., n)`, values of shape `(V..., n)` and points of
shape `(S..., m)`: the result has the shape `(Z..., m)`, `Z` being the broadcast of `B`, `V`, `S`, and every entry is the spline
through the one row of values on the one row of knots, at the one point, that belong to its index. -/
theorem C135_spline (hx0 : x0.shape = n :: B) (hy : y0.shape = n :: V) (hx : x.shape = m :: S)
    (hZ : bcAll [B, V, S] = some Z) (coeffs : Except Err (Tens (List ℝ))) (hc : SolvesT x0 y0 degree coeffs) :
    ∃ r, evaluateT degree x0 x coeffs = .ok r ∧ r.shape = m :: Z ∧ ∀ j i, j < m → Valid Z i →
      ∃ c, Solves (row x0 n (proj B i)) degree (row y0 n (proj V i)) c ∧
        r.get (j :: i) = evaluate (row x0 n (proj B i)) degree c (x.get (j :: proj S i)) := by
  have hle := bcAll_le hZ
  obtain ⟨Z1, h1, -⟩ := bc_of_le (hle B (by simp)) (hle S (by simp))
  obtain ⟨Z2, h2, -⟩ := bc_of_le (hle B (by simp)) (hle V (by simp))
  have h3 := (bc_three h1 (by rw [bc_comm]; exact h2)).2 hZ
  have hZ1 := bc_eq_some.1 h1
  have hZ2 := bc_eq_some.1 h2
  have hZ3 := bc_eq_some.1 h3
  have h4 : bc Z S = some Z := bc_absorb' (hZ1.1.2.trans hZ3.1.2)
  simp only [SolvesT, hx0, hy, ne_eq, not_true_eq_false, ↓reduceIte, h2] at hc
  obtain ⟨c, rfl, hcs, hcg⟩ := hc
  refine ⟨?res, ?hrun, ?hshape, ?hget⟩
  case hrun =>
    simp only [evaluateT, pickPolyT, gatherBlock, lastDim, hx0, hx, hcs, orRuntime, bind, Except.bind, pure, Except.pure, h1, h3,
      map2, bc, ↓reduceIte, h4, Option.map_some]
    rfl
  case hshape => rfl
  case hget =>
    intro j i hj hi
    have hil : i.length = Z.length := hi.length_eq
    have q1 : ∀ {W}, Le W Z → proj W (proj Z i) = proj W i := fun h => proj_proj h (by omega)
    have q2 : ∀ {W}, Le W Z1 → proj W (proj Z1 i) = proj W i := fun h => proj_proj h (by rw [hil]; exact hZ3.1.2.length)
    have q3 : ∀ {W}, Le W Z2 → proj W (proj Z2 i) = proj W i := fun h => proj_proj h (by rw [hil]; exact hZ3.1.1.length)
    have hH : ∀ W l, proj (m :: W) (j :: l) = j :: proj W l := fun W l => by
      simp only [proj]
      congr 1
      split_ifs <;> omega
    refine ⟨c.get (proj Z2 i), ?_, ?_⟩
    · have := hcg (proj Z2 i) (valid_proj hZ3.1.1 hi)
      rwa [q3 hZ2.1.1, q3 hZ2.1.2] at this
    · simp only [hH, hcs, List.headD_cons, List.tail_cons, q1 hZ3.1.1, q1 hZ3.1.2, q2 hZ1.1.1, q2 hZ1.1.2]
      rfl

/-- **C135** for cubic splines on increasing knots: every entry of the result is the value of a twice continuously
differentiable function that passes through the row of data it belongs to. -/
theorem C135_cubic (hx0 : x0.shape = n :: B) (hy : y0.shape = n :: V) (hx : x.shape = m :: S) (hn : 2 ≤ n)
    (hs : ∀ i, Valid B i → (row x0 n i).Pairwise (· < ·)) (hZ : bcAll [B, V, S] = some Z)
    (coeffs : Except Err (Tens (List ℝ))) (hc : SolvesT x0 y0 3 coeffs) :
    ∃ r, evaluateT 3 x0 x coeffs = .ok r ∧ r.shape = m :: Z ∧ ∀ j i, j < m → Valid Z i →
      ∃ f : ℝ → ℝ, ContDiff ℝ 2 f ∧ (∀ k < n, f (x0.get (k :: proj B i)) = y0.get (k :: proj V i)) ∧
        r.get (j :: i) = f (x.get (j :: proj S i)) := by
  obtain ⟨r, h1, h2, h3⟩ := C135_spline hx0 hy hx hZ coeffs hc
  refine ⟨r, h1, h2, fun j i hj hi => ?_⟩
  obtain ⟨c, h4, h5⟩ := h3 j i hj hi
  have hB : Le B Z := bcAll_le hZ B (by simp)
  have hl : 2 ≤ (row x0 n (proj B i)).length := by rwa [row_length]
  have hyl : (row y0 n (proj V i)).length = (row x0 n (proj B i)).length := by rw [row_length, row_length]
  have hpw := hs _ (valid_proj hB hi)
  refine ⟨_, C56_contDiff _ _ c hl hpw hyl h4, fun k hk => ?_, h5⟩
  have := (C56_spline _ _ c hl hpw hyl h4).1 k (by rwa [row_length])
  rwa [at_row _ _ _ _ hk, at_row _ _ _ _ hk] at this

/-- **C135** shapes that do not broadcast, or knots and values of different numbers, raise `RuntimeError`. -/
theorem C135_raises {k : ℕ} (hx0 : x0.shape = n :: B) (hy : y0.shape = k :: V) (hx : x.shape = m :: S)
    (h : k ≠ n ∨ bcAll [B, V, S] = none) (coeffs : Except Err (Tens (List ℝ))) (hc : SolvesT x0 y0 degree coeffs) :
    evaluateT degree x0 x coeffs = .error .runtime := by
  rcases h1 : bc B S with _ | Z1
  · simp [evaluateT, pickPolyT, lastDim, hx0, hx, orRuntime, bind, Except.bind, h1]
  by_cases hk : k ≠ n
  · simp only [SolvesT, hx0, hy, if_pos hk] at hc
    simp [evaluateT, pickPolyT, lastDim, hx0, hx, orRuntime, bind, Except.bind, h1, hc, pure, Except.pure]
  · have hZ : bcAll [B, V, S] = none := h.resolve_left hk
    simp only [SolvesT, hx0, hy, if_neg hk] at hc
    rcases h2 : bc B V with _ | Z2
    · simp only [h2] at hc
      simp [evaluateT, pickPolyT, lastDim, hx0, hx, orRuntime, bind, Except.bind, h1, hc, pure, Except.pure]
    · simp only [h2] at hc
      obtain ⟨c, rfl, hcs, -⟩ := hc
      have h3 : bc Z2 Z1 = none := by
        rcases h3 : bc Z2 Z1 with _ | Z
        · rfl
        · rw [(bc_three h1 (by rw [bc_comm]; exact h2)).1 h3] at hZ; cases hZ
      simp [evaluateT, pickPolyT, gatherBlock, lastDim, hx0, hx, hcs, orRuntime, bind, Except.bind, h1, h3, pure, Except.pure]

/-! ### `Spline.weights` and `SplineNd` -/

/-- **C135** `weights(x)`: shape `(Z..., m, n)`, every row of weights belonging to one row of knots and one point. -/
theorem C135_weights (hx0 : x0.shape = n :: B) (hx : x.shape = m :: S) (hZ : bc B S = some Z) (inv : Tens (List (List ℝ))) :
    ∃ r, weightsT degree x0 inv x = .ok r ∧ r.shape = m :: Z ∧ ∀ j i, j < m → Z.length ≤ i.length →
      r.get (j :: i) = weights (row x0 n (proj B i)) degree (inv.get (proj B i)) (x.get (j :: proj S i)) := by
  have hZ1 := bc_eq_some.1 hZ
  have h2 : bc B Z = some Z := bc_absorb hZ1.1.1
  have h4 : bc Z S = some Z := bc_absorb' hZ1.1.2
  refine ⟨?res, ?hrun, ?hshape, ?hget⟩
  case hrun =>
    simp only [weightsT, pickPolyT, lastDim, hx0, hx, orRuntime, bind, Except.bind, pure, Except.pure, hZ, h2,
      map2, bc, ↓reduceIte, h4, Option.map_some]
    rfl
  case hshape => rfl
  case hget =>
    intro j i hj hi
    have q1 : ∀ {W}, Le W Z → proj W (proj Z i) = proj W i := fun h => proj_proj h hi
    have hH : ∀ W l, proj (m :: W) (j :: l) = j :: proj W l := fun W l => by
      simp only [proj]
      congr 1
      split_ifs <;> omega
    simp only [hH, List.headD_cons, List.tail_cons, q1 (Le.refl _), q1 hZ1.1.1, q1 hZ1.1.2]
    simp [weights, Function.comp_def]

/-- One dimension of an N-dimensional spline: knots, inverses of their matrices, coordinates of the points. -/
structure Dim where
  x0 : Tens ℝ
  inv : Tens (List (List ℝ))
  x : Tens ℝ

/-- The batch dimensions of the knots. -/
def Dim.kb (d : Dim) : Shape := d.x0.shape.tail

/-- The batch dimensions of the points. -/
def Dim.pb (d : Dim) : Shape := d.x.shape.tail

/-- The weights along one dimension for point `j` at batch index `i`. -/
noncomputable def Dim.weights (degree : ℕ) (d : Dim) (j : ℕ) (i : List ℕ) : List ℝ :=
  Interp.weights (row d.x0 (npoints d.x0) (proj d.kb i)) degree (d.inv.get (proj d.kb i)) (d.x.get (j :: proj d.pb i))

theorem forall₂_left {α β : Type} {R : α → β → Prop} {l : List α} {l' : List β} (h : List.Forall₂ R l l') (a : α) (ha : a ∈ l) :
    ∃ b ∈ l', R a b := by
  induction h with
  | nil => simp at ha
  | cons h1 h2 ih =>
    rcases List.mem_cons.1 ha with rfl | ha
    · exact ⟨_, by simp, h1⟩
    · obtain ⟨b, hb, hr⟩ := ih ha
      exact ⟨b, by simp [hb], hr⟩

theorem forall₂_right {α β : Type} {R : α → β → Prop} {l : List α} {l' : List β} (h : List.Forall₂ R l l') (b : β) (hb : b ∈ l') :
    ∃ a ∈ l, R a b := by
  induction h with
  | nil => simp at hb
  | cons h1 h2 ih =>
    rcases List.mem_cons.1 hb with rfl | hb
    · exact ⟨_, by simp, h1⟩
    · obtain ⟨a, ha, hr⟩ := ih hb
      exact ⟨a, by simp [ha], hr⟩

theorem weightsAll_run : ∀ (ds : List Dim), (∀ d ∈ ds, d.x0.shape ≠ [] ∧ d.x.shape = m :: d.pb ∧ ∃ Z, bc d.kb d.pb = some Z) →
    ∃ ws, weightsAll degree (ds.map (·.x0)) (ds.map (·.inv)) (ds.map (·.x)) = .ok ws ∧
      List.Forall₂ (fun (d : Dim) (w : Tens (List ℝ)) => ∃ Z, bc d.kb d.pb = some Z ∧ w.shape = m :: Z ∧
        ∀ j i, j < m → Z.length ≤ i.length → w.get (j :: i) = d.weights degree j i) ds ws
  | [], _ => ⟨[], rfl, .nil⟩
  | d :: ds, h => by
    obtain ⟨h1, h2, Z, h3⟩ := h d (by simp)
    obtain ⟨ws, h4, h5⟩ := weightsAll_run ds fun d hd => h d (by simp [hd])
    have h0 : d.x0.shape = npoints d.x0 :: d.kb := by
      unfold npoints Dim.kb
      rcases hs : d.x0.shape with _ | ⟨n, B⟩
      · exact absurd hs h1
      · rfl
    obtain ⟨w, h6, h7, h8⟩ := C135_weights (degree := degree) h0 h2 h3 d.inv
    exact ⟨w :: ws, by simp [weightsAll, h4, h6, bind, Except.bind, pure, Except.pure], .cons ⟨Z, h3, h7, h8⟩ h5⟩

/-- The batch shapes of knots and points. -/
def batchShapes (ds : List Dim) : List Shape := ds.flatMap fun d => [d.kb, d.pb]

/-- `m :: Z` and `U` have the same upper bounds as the shapes of the weights and `U`. -/
theorem ub_iff {ds : List Dim} {ws : List (Tens (List ℝ))} {P : Dim → Tens (List ℝ) → Shape → Prop} (hne : ds ≠ [])
    (h2 : List.Forall₂ (fun (d : Dim) (w : Tens (List ℝ)) => ∃ Z, bc d.kb d.pb = some Z ∧ w.shape = m :: Z ∧ P d w Z) ds ws)
    (W : Shape) :
    (∀ w ∈ ws, Le w.shape W) ↔ ∃ a T, W = a :: T ∧ (m = 1 ∨ m = a) ∧ ∀ s ∈ batchShapes ds, Le s T := by
  constructor
  · intro hT
    obtain ⟨d0, hd0⟩ := List.exists_mem_of_ne_nil _ hne
    obtain ⟨w0, hw0, Y0, hY0, hws0, -⟩ := forall₂_left h2 d0 hd0
    have ht0 := hT w0 hw0
    rw [hws0] at ht0
    rcases W with _ | ⟨a, T⟩
    · exact ht0.elim
    · refine ⟨a, T, rfl, ht0.1, ?_⟩
      intro s hs
      obtain ⟨d, hdm, hs⟩ := List.mem_flatMap.1 hs
      obtain ⟨w, hw, Y, hY, hws, -⟩ := forall₂_left h2 d hdm
      have ht := hT w hw
      rw [hws] at ht
      have hYb := bc_eq_some.1 hY
      simp only [List.mem_cons, List.not_mem_nil, or_false] at hs
      rcases hs with rfl | rfl
      · exact hYb.1.1.trans ht.2
      · exact hYb.1.2.trans ht.2
  · rintro ⟨a, T, rfl, h3, h4⟩ w hw
    obtain ⟨d, hdm, Y, hY, hws, -⟩ := forall₂_right h2 w hw
    rw [hws]
    exact ⟨h3, (bc_eq_some.1 hY).2 T (h4 _ (List.mem_flatMap.2 ⟨d, hdm, by simp⟩)) (h4 _ (List.mem_flatMap.2 ⟨d, hdm, by simp⟩))⟩

theorem kb_bc {ds : List Dim} {Z : Shape} (h : ∀ s ∈ batchShapes ds, Le s Z) :
    ∃ W, bcAll ((ds.map (·.x0)).map (·.shape.tail)) = some W := by
  obtain ⟨W, hW, -⟩ := bcAll_of_le (l := (ds.map (·.x0)).map (·.shape.tail)) (W := Z) (by
    intro s hs
    simp only [List.map_map, List.mem_map, Function.comp_def] at hs
    obtain ⟨d, hd, rfl⟩ := hs
    exact h _ (List.mem_flatMap.2 ⟨d, hd, by simp [Dim.kb]⟩))
  exact ⟨W, hW⟩

/-- **C136** what `SplineNd(*x0s).evaluate(y0, *xs)` returns, for knots of shapes `(B..., n_k)`, points of shapes `(S..., m)` and
values of shape `(U..., n_1, ..., n_d)`: with `Z` the broadcast of all `B` and `S`, the result has the broadcast shape of
`(Z..., m)` **and `U`**, and every entry combines the weights and the values its index stands for in those two shapes. So the last
dimension of `U` is aligned with that of the *points*. -/
theorem C136_splineNd {ds : List Dim} (hne : ds ≠ []) (hd : ∀ d ∈ ds, d.x0.shape ≠ [] ∧ d.x.shape = m :: d.pb) {U Z Y : Shape}
    (hy : y0.shape = (ds.map fun d => npoints d.x0).reverse ++ U) (hZ : bcAll (batchShapes ds) = some Z)
    (hY : bc (m :: Z) U = some Y) :
    ∃ r, splineNd degree (ds.map (·.x0)) (ds.map (·.inv)) y0 (ds.map (·.x)) = .ok r ∧ r.shape = Y ∧
      ∀ i, Valid Y i → ∀ j k, proj (m :: Z) i = j :: k → r.get i = einsum (ds.map fun d => d.weights degree j k)
        fun idx => y0.get (idx.reverse ++ proj U i) := by
  have hle := bcAll_le hZ
  have hlub := (bcAll_eq_some.1 hZ).2
  have hYb := bc_eq_some.1 hY
  have hmemB : ∀ d ∈ ds, d.kb ∈ batchShapes ds := fun d h => List.mem_flatMap.2 ⟨d, h, by simp⟩
  have hmemS : ∀ d ∈ ds, d.pb ∈ batchShapes ds := fun d h => List.mem_flatMap.2 ⟨d, h, by simp⟩
  obtain ⟨ws, h1, h2⟩ := weightsAll_run (degree := degree) ds fun d h => ⟨(hd d h).1, (hd d h).2, by
    obtain ⟨Y, hY, -⟩ := bc_of_le (hle _ (hmemB d h)) (hle _ (hmemS d h))
    exact ⟨Y, hY⟩⟩
  obtain ⟨W, h3⟩ := kb_bc hle
  have h4 := lastDims_run (ds.map (·.x0)) (by
    intro g hg
    obtain ⟨d, h, rfl⟩ := List.mem_map.1 hg
    exact (hd d h).1)
  have h5 : bcAll (ws.map (·.shape) ++ [U]) = some Y := by
    rw [bcAll_eq_some]
    constructor
    · intro s hs
      rcases List.mem_append.1 hs with hs | hs
      · obtain ⟨w, hw, rfl⟩ := List.mem_map.1 hs
        exact Le.trans ((ub_iff hne h2 (m :: Z)).2 ⟨m, Z, rfl, .inr rfl, hle⟩ w hw) hYb.1.1
      · rw [List.mem_singleton.1 hs]; exact hYb.1.2
    · intro T hT
      refine hYb.2 T ?_ (hT U (by simp))
      obtain ⟨a, T, rfl, h6, h7⟩ := (ub_iff hne h2 T).1 fun w hw => hT _ (List.mem_append_left _ (List.mem_map_of_mem hw))
      exact ⟨h6, hlub T h7⟩
  have h6 : y0.shape.take ds.length = (ds.map fun d => npoints d.x0).reverse := by
    rw [hy]; exact List.take_left' (by simp)
  have h7 : y0.shape.drop ds.length = U := by
    rw [hy]; exact List.drop_left' (by simp)
  refine ⟨?res, ?hrun, ?hshape, ?hget⟩
  case hrun =>
    simp only [splineNd, h4, h3, h1, bind, Except.bind, pure, Except.pure, orRuntime]
    simp only [einsumT, List.length_map, h6, h7, List.map_map, Function.comp_def, ne_eq, not_true_eq_false, ↓reduceIte, h5,
      bind, Except.bind, pure, Except.pure, orRuntime]
    rfl
  case hshape => rfl
  case hget =>
    intro i hi j k hjk
    have hil : i.length = Y.length := hi.length_eq
    have hv := valid_proj hYb.1.1 hi
    rw [hjk] at hv
    have hj : j < m := by cases hv; assumption
    have hk : Valid Z k := by cases hv; assumption
    have hkl : k.length = Z.length := hk.length_eq
    have : (ws.map fun w => w.get (proj w.shape i)) = ds.map fun d => d.weights degree j k := by
      have hB : ∀ d ∈ ds, Le d.kb Z ∧ Le d.pb Z := fun d h => ⟨hle _ (hmemB d h), hle _ (hmemS d h)⟩
      clear h1 h5 h4 h3 hmemB hmemS hlub hle hZ hy hd hne h6 h7
      induction h2 with
      | nil => rfl
      | @cons d w ds ws h8 h9 ih =>
        obtain ⟨X, hX, hws, hg⟩ := h8
        have hXb := bc_eq_some.1 hX
        have hXZ := hXb.2 Z (hB d (by simp)).1 (hB d (by simp)).2
        have hXl : X.length ≤ k.length := by rw [hkl]; exact hXZ.length
        have hH : proj (m :: X) i = j :: proj X k := by
          rw [← proj_proj (s := m :: X) (Z := m :: Z) ⟨.inr rfl, hXZ⟩ (by rw [hil]; exact hYb.1.1.length), hjk]
          simp only [proj]
          congr 1
          split_ifs <;> omega
        rw [List.map_cons, List.map_cons, ih fun d hd => hB d (by simp [hd]), hws, hH,
          hg j _ hj (by rw [proj_length hXl])]
        congr 1
        unfold Dim.weights
        rw [proj_proj hXb.1.1 hXl, proj_proj hXb.1.2 hXl]
    exact congrArg (fun l => einsum l fun idx => y0.get (idx.reverse ++ proj U i)) this

theorem weightsAll_fail : ∀ (ds : List Dim), (∀ d ∈ ds, d.x0.shape ≠ [] ∧ d.x.shape = m :: d.pb) →
    (∃ d ∈ ds, bc d.kb d.pb = none) → weightsAll degree (ds.map (·.x0)) (ds.map (·.inv)) (ds.map (·.x)) = .error .runtime
  | [], _, h => by simp at h
  | d :: ds, hd, h => by
    obtain ⟨h1, h2⟩ := hd d (by simp)
    have h0 : d.x0.shape = npoints d.x0 :: d.kb := by
      unfold npoints Dim.kb
      rcases hs : d.x0.shape with _ | ⟨n, B⟩
      · exact absurd hs h1
      · rfl
    rcases hb : bc d.kb d.pb with _ | Z
    · simp [weightsAll, weightsT, pickPolyT, lastDim, h0, h2, orRuntime, hb, bind, Except.bind]
    · obtain ⟨w, h6, -⟩ := C135_weights (degree := degree) h0 h2 hb d.inv
      have := weightsAll_fail ds (fun d hd' => hd d (by simp [hd'])) (by
        obtain ⟨d', hd', hn⟩ := h
        rcases List.mem_cons.1 hd' with rfl | hd'
        · rw [hb] at hn; cases hn
        · exact ⟨d', hd', hn⟩)
      simp [weightsAll, h6, this, bind, Except.bind]

/-- **C136** in all other cases it raises `RuntimeError`. -/
theorem C136_raises {ds : List Dim} (hne : ds ≠ []) (hd : ∀ d ∈ ds, d.x0.shape ≠ [] ∧ d.x.shape = m :: d.pb) {U : Shape}
    (hy : y0.shape = (ds.map fun d => npoints d.x0).reverse ++ U)
    (h : ¬ ∃ Z Y, bcAll (batchShapes ds) = some Z ∧ bc (m :: Z) U = some Y) :
    splineNd degree (ds.map (·.x0)) (ds.map (·.inv)) y0 (ds.map (·.x)) = .error .runtime := by
  have h4 := lastDims_run (ds.map (·.x0)) (by
    intro g hg
    obtain ⟨d, h, rfl⟩ := List.mem_map.1 hg
    exact (hd d h).1)
  rcases h3 : bcAll ((ds.map (·.x0)).map (·.shape.tail)) with _ | W
  · simp only [splineNd, h4, h3, bind, Except.bind, orRuntime]
  by_cases hf : ∃ d ∈ ds, bc d.kb d.pb = none
  · simp only [splineNd, h4, h3, bind, Except.bind, orRuntime, weightsAll_fail ds hd hf]
  · obtain ⟨ws, h1, h2⟩ := weightsAll_run (degree := degree) ds fun d h => ⟨(hd d h).1, (hd d h).2, by
      rcases hb : bc d.kb d.pb with _ | Z
      · exact absurd ⟨d, h, hb⟩ hf
      · exact ⟨Z, rfl⟩⟩
    have h5 : bcAll (ws.map (·.shape) ++ [U]) = none := by
      rcases h5 : bcAll (ws.map (·.shape) ++ [U]) with _ | Y
      · rfl
      · exfalso
        have hl := bcAll_le h5
        obtain ⟨a, T, rfl, h6, h7⟩ := (ub_iff hne h2 Y).1 fun w hw => hl _ (List.mem_append_left _ (List.mem_map_of_mem hw))
        obtain ⟨Z, hZ, hZT⟩ := bcAll_of_le h7
        obtain ⟨X, hX, -⟩ := bc_of_le (s := m :: Z) (t := U) (W := a :: T) ⟨h6, hZT⟩ (hl U (by simp))
        exact h ⟨Z, X, hZ, hX⟩
    have h6 : y0.shape.take ds.length = (ds.map fun d => npoints d.x0).reverse := by
      rw [hy]; exact List.take_left' (by simp)
    have h7 : y0.shape.drop ds.length = U := by
      rw [hy]; exact List.drop_left' (by simp)
    simp only [splineNd, h4, h3, h1, bind, Except.bind, orRuntime]
    simp only [einsumT, List.length_map, h6, h7, List.map_map, Function.comp_def, ne_eq, not_true_eq_false, ↓reduceIte, h5,
      bind, Except.bind, orRuntime]

/-- **C136** (partial: only for values without batch dimensions, `U = ()`, or with a dimension of size one inserted before the grid,
`U = (V..., 1)`) the documented behaviour: the result has the shape `(Z..., m)`, `Z` being the broadcast of all the batch
shapes, and every entry is the spline on the row of knots, at the point and through the grid of values that belong to its
index. -/
theorem C136_documented_partial {ds : List Dim} (hne : ds ≠ []) (hd : ∀ d ∈ ds, d.x0.shape ≠ [] ∧ d.x.shape = m :: d.pb)
    {U V Z : Shape} (hU : U = [] ∧ V = [] ∨ U = 1 :: V) (hy : y0.shape = (ds.map fun d => npoints d.x0).reverse ++ U)
    (hZ : bcAll (batchShapes ds ++ [V]) = some Z) :
    ∃ r, splineNd degree (ds.map (·.x0)) (ds.map (·.inv)) y0 (ds.map (·.x)) = .ok r ∧ r.shape = m :: Z ∧
      ∀ j i, j < m → Valid Z i → r.get (j :: i) = einsum (ds.map fun d => d.weights degree j i)
        fun idx => y0.get (idx.reverse ++ proj U (0 :: i)) := by
  have hle := bcAll_le hZ
  obtain ⟨K, hK, hKZ⟩ := bcAll_of_le (l := batchShapes ds) (W := Z) fun s hs => hle s (List.mem_append_left _ hs)
  have hKle := bcAll_le hK
  have hlub := (bcAll_eq_some.1 hZ).2
  have hbc : bc (m :: K) U = some (m :: Z) := by
    rw [bc_eq_some]
    refine ⟨⟨⟨.inr rfl, hKZ⟩, ?_⟩, ?_⟩
    · rcases hU with ⟨rfl, -⟩ | rfl
      · trivial
      · exact ⟨.inl rfl, hle V (by simp)⟩
    · intro W hW hUW
      rcases W with _ | ⟨a, W⟩
      · exact hW.elim
      · refine ⟨hW.1, hlub W fun s hs => ?_⟩
        rcases List.mem_append.1 hs with hs | hs
        · exact (hKle s hs).trans hW.2
        · rw [List.mem_singleton.1 hs]
          rcases hU with ⟨-, rfl⟩ | rfl
          · trivial
          · exact hUW.2
  obtain ⟨r, h1, h2, h3⟩ := C136_splineNd (degree := degree) hne hd hy hK hbc
  refine ⟨r, h1, h2, fun j i hj hi => ?_⟩
  have hil : i.length = Z.length := hi.length_eq
  have hH : proj (m :: K) (j :: i) = j :: proj K i := by
    simp only [proj]
    congr 1
    split_ifs <;> omega
  have hUj : proj U (j :: i) = proj U (0 :: i) := by
    rcases hU with ⟨rfl, -⟩ | rfl
    · rfl
    · simp [proj]
  rw [h3 (j :: i) (.cons hj hi) j _ hH, hUj]
  congr 1
  refine List.map_congr_left fun d hdm => ?_
  have hKl : K.length ≤ i.length := by rw [hil]; exact hKZ.length
  unfold Dim.weights
  rw [proj_proj (hKle _ (List.mem_flatMap.2 ⟨d, hdm, by simp⟩)) hKl,
    proj_proj (hKle _ (List.mem_flatMap.2 ⟨d, hdm, by simp⟩)) hKl]

/-- **C136** is false as documented: `b` sets of values `(b, n)` on one row of `n` knots, evaluated at `m` points, should give
a result `(b, m)`. The call raises `RuntimeError` if `m ≠ b` (and neither is 1)... -/
theorem C136_batch_raises (d : Dim) {b : ℕ} (h1 : d.x0.shape = [n]) (h2 : d.x.shape = [m]) (hy : y0.shape = [n, b])
    (hmb : m ≠ b) (hm : m ≠ 1) (hb : b ≠ 1) : splineNd degree [d.x0] [d.inv] y0 [d.x] = .error .runtime := by
  refine C136_raises (m := m) (ds := [d]) (U := [b]) (by simp) (by simp [h1, h2, Dim.pb]) (by simp [hy, npoints, h1]) ?_
  rintro ⟨Z, Y, hZ, hY⟩
  simp only [batchShapes, Dim.kb, Dim.pb, h1, h2, List.tail_cons, List.flatMap_cons, List.flatMap_nil, List.append_nil, bcAll,
    Option.bind_some, bc, Option.some.injEq] at hZ
  subst hZ
  simp [bc, hmb, hm, hb] at hY

/-- ... and if `m = b` it silently pairs the point `j` with the set of values `j`. -/
theorem C136_batch_pairs (d : Dim) (h1 : d.x0.shape = [n]) (h2 : d.x.shape = [m]) (hy : y0.shape = [n, m]) :
    ∃ r, splineNd degree [d.x0] [d.inv] y0 [d.x] = .ok r ∧ r.shape = [m] ∧ ∀ j < m, r.get [j] =
      einsum [weights (row d.x0 n []) degree (d.inv.get []) (d.x.get [j])] fun idx => y0.get (idx.reverse ++ [j]) := by
  obtain ⟨r, e1, e2, e3⟩ := C136_splineNd (m := m) (y0 := y0) (degree := degree) (ds := [d]) (U := [m]) (Z := []) (Y := [m])
    (by simp) (by simp [h1, h2, Dim.pb])
    (by simp [hy, npoints, h1]) (by simp [batchShapes, Dim.kb, Dim.pb, h1, h2, bcAll, bc]) (by simp [bc])
  refine ⟨r, e1, e2, fun j hj => ?_⟩
  have hp : proj [m] [j] = [j] := by
    simp only [proj]
    split_ifs with hm
    · rw [show j = 0 by omega]
    · rfl
  rw [e3 [j] (.cons hj .nil) j [] hp, hp]
  simp [Dim.weights, npoints, h1, h2, Dim.kb, Dim.pb, proj]

/-! ### Examples -/

/-- Four rows of values on one row of six knots, at a row of five points for each: a tensor `(4, 5)`. -/
example (x0 y0 x : Tens ℝ) (h0 : x0.shape = [6]) (hy : y0.shape = [6, 4]) (hx : x.shape = [5, 4])
    (hs : (row x0 6 []).Pairwise (· < ·)) (coeffs : Except Err (Tens (List ℝ))) (hc : SolvesT x0 y0 3 coeffs) :
    ∃ r, evaluateT 3 x0 x coeffs = .ok r ∧ r.shape = [5, 4] ∧ ∀ j i, j < 5 → i < 4 →
      ∃ f : ℝ → ℝ, ContDiff ℝ 2 f ∧ (∀ k < 6, f (x0.get [k]) = y0.get [k, i]) ∧ r.get [j, i] = f (x.get [j, i]) := by
  obtain ⟨r, h1, h2, h3⟩ := C135_cubic (B := []) (V := [4]) (S := [4]) (Z := [4]) h0 hy hx (by omega)
    (by intro i hi; cases hi; exact hs) (by decide) coeffs hc
  refine ⟨r, h1, h2, fun j i hj hi => ?_⟩
  have := h3 j [i] hj (.cons hi .nil)
  simpa [proj] using this

/-- The solver's specification can be met: on increasing knots there always are coefficients (here for one row). -/
example (x0 y0 : Tens ℝ) (h0 : x0.shape = [6]) (hy : y0.shape = [6]) (hs : (row x0 6 []).Pairwise (· < ·)) :
    ∃ coeffs, SolvesT x0 y0 3 coeffs := by
  obtain ⟨c, hc, -⟩ := C56_exists (row x0 6 []) (row y0 6 []) (by rw [row_length]; omega) hs (by rw [row_length, row_length])
  refine ⟨.ok ⟨[], fun _ => c⟩, ?_⟩
  simp only [SolvesT, h0, hy, ne_eq, not_true_eq_false, ↓reduceIte, bc]
  refine ⟨_, rfl, rfl, fun i hi => ?_⟩
  cases hi
  exact hc

/-- Values `(3, 1, 4, 5)` on knots `(4,)` and `(5,)`, at seven points: `(3, 7)`. -/
example (d1 d2 : Dim) (y0 : Tens ℝ) (h1 : d1.x0.shape = [4]) (h2 : d2.x0.shape = [5]) (h3 : d1.x.shape = [7])
    (h4 : d2.x.shape = [7]) (hy : y0.shape = [5, 4, 1, 3]) :
    ∃ r, splineNd 3 [d1.x0, d2.x0] [d1.inv, d2.inv] y0 [d1.x, d2.x] = .ok r ∧ r.shape = [7, 3] := by
  obtain ⟨r, e1, e2, -⟩ := C136_documented_partial (m := 7) (degree := 3) (y0 := y0) (ds := [d1, d2]) (U := [1, 3]) (V := [3]) (Z := [3])
    (by simp) (by simp [h1, h2, h3, h4, Dim.pb]) (.inr rfl) (by simp [npoints, h1, h2, hy])
    (by simp [batchShapes, Dim.kb, Dim.pb, h1, h2, h3, h4, bcAll, bc])
  exact ⟨r, e1, e2⟩

/-- Three knots 0, 1, 2; the values 0, 1, 4 and twice that; the points 1/2 and 3/2. -/
noncomputable def exX0 : Tens ℝ := ⟨[3], fun i => i.headD 0⟩
noncomputable def exY0 : Tens ℝ := ⟨[3, 2], fun i => (i.headD 0) ^ 2 * (i.getD 1 0 + 1)⟩
noncomputable def exX : Tens ℝ := ⟨[2], fun i => i.headD 0 + 1 / 2⟩

/-- A solver meeting the specification for them exists, so `C135_spline` applies. -/
example : ∃ coeffs r, SolvesT exX0 exY0 3 coeffs ∧ evaluateT 3 exX0 exX coeffs = .ok r ∧ r.shape = [2, 2] := by
  have hs : (row exX0 3 []).Pairwise (· < ·) := by norm_num [row, exX0, List.range, List.range.loop]
  choose c hc _ using fun i => C56_exists (row exX0 3 []) (row exY0 3 i) (by rw [row_length]; omega) hs (by rw [row_length, row_length])
  have h : SolvesT exX0 exY0 3 (.ok ⟨[2], c⟩) := by
    simp only [SolvesT, exX0, exY0, ne_eq, not_true_eq_false, ↓reduceIte, bc]
    refine ⟨_, rfl, rfl, fun i hi => ?_⟩
    have := hc i
    obtain ⟨a, ha, rfl⟩ : ∃ a, a < 2 ∧ i = [a] := by
      cases hi with
      | cons h t => cases t; exact ⟨_, h, rfl⟩
    simpa [proj, ha.ne, exX0, exY0] using this
  obtain ⟨r, h1, h2, -⟩ := C135_spline (B := []) (V := [2]) (S := []) (Z := [2]) (n := 3) (m := 2) (x0 := exX0) (y0 := exY0) (x := exX)
    rfl rfl rfl rfl _ h
  exact ⟨_, r, h, h1, h2⟩

/-- `C135_raises`: values on four knots; `C135_weights`. -/
example : evaluateT 3 exX0 exX (.error .runtime) = .error .runtime :=
  C135_raises (B := []) (V := []) (S := []) (n := 3) (m := 2) (k := 4) (x0 := exX0) (y0 := ⟨[4], fun _ => 0⟩) (x := exX) rfl rfl rfl
    (Or.inl (by norm_num)) _ (by simp [SolvesT, exX0])
example (inv : Tens (List (List ℝ))) := C135_weights (B := []) (S := []) (Z := []) (n := 3) (m := 2) (degree := 3) (x0 := exX0) (x := exX)
  rfl rfl rfl inv

/-- `C136_splineNd`: the same knots in two dimensions, values (3, 3, 2); `C136_raises`, `C136_batch_raises`: values (5, 3, 3) do not
broadcast with the two points. -/
example (inv : Tens (List (List ℝ))) (g : List ℕ → ℝ) := C136_splineNd (degree := 3) (m := 2) (y0 := ⟨[3, 3, 2], g⟩)
  (ds := [⟨exX0, inv, exX⟩, ⟨exX0, inv, exX⟩]) (by simp) (by simp [exX0, exX, Dim.pb]) (U := [2]) (Z := []) (Y := [2]) rfl rfl rfl
example (inv : Tens (List (List ℝ))) (g : List ℕ → ℝ) := C136_raises (degree := 3) (m := 2) (y0 := ⟨[3, 3, 5], g⟩)
  (ds := [⟨exX0, inv, exX⟩, ⟨exX0, inv, exX⟩]) (by simp) (by simp [exX0, exX, Dim.pb]) (U := [5]) rfl (by
    rintro ⟨Z, Y, h1, h2⟩
    have : Z = [] := by
      have : bcAll (batchShapes [⟨exX0, inv, exX⟩, ⟨exX0, inv, exX⟩]) = some [] := rfl
      rw [this] at h1; exact (Option.some.inj h1).symm
    subst this
    simp [bc] at h2)
example (inv : Tens (List (List ℝ))) (g : List ℕ → ℝ) := C136_batch_raises (degree := 3) (n := 3) (m := 2) (b := 5) (y0 := ⟨[3, 5], g⟩)
  ⟨exX0, inv, exX⟩ rfl rfl rfl (by norm_num) (by norm_num) (by norm_num)

end Verif.Interp.Batch
