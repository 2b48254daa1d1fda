import Verif.Interp.BatchLin

/-! # C134: N-dimensional interpolation on batches -/

namespace Verif.Interp.Batch

open Verif.Tensor

/-- What the code computes along one dimension. -/
theorem ndOne_run {g x : Tens ℝ} {n : ℕ} {B S Z : Shape} (hg : g.shape = n :: B) (hn : 2 ≤ n) (hx : x.shape = 1 :: S)
    (h : bc B S = some Z) :
    ∃ idx w, ndOne g x = .ok (idx, w) ∧ idx.shape = 1 :: Z ∧ w.shape = 1 :: Z ∧ ∀ i, Z.length ≤ i.length →
      idx.get (0 :: i) = projectOne (row g n (proj B i)) (x.get (0 :: proj S i)) ∧
      w.get (0 :: i) = weight1 (row g n (proj B i)) (x.get (0 :: proj S i)) := by
  have hZ := bc_eq_some.1 h
  have h5 : bc B Z = some Z := bc_absorb hZ.1.1
  have h6 : bc S Z = some Z := bc_absorb hZ.1.2
  have h7 : bc Z Z = some Z := bc_absorb (Le.refl _)
  refine ⟨?idx, ?w, ?hrun, ?h1, ?h2, ?h3⟩
  case hrun =>
    simp only [ndOne, projectOneT, gatherLast, map2, lastDim, diffLast, hg, hx, orRuntime, bind, Except.bind, pure, Except.pure,
      h, h5, h6, h7, bc, List.tail_cons, ↓reduceIte, Option.map_some]
    rfl
  case h1 => rfl
  case h2 => rfl
  case h3 =>
    intro i hi
    have q : ∀ {W}, Le W Z → proj W (proj Z i) = proj W i := fun h => proj_proj h hi
    have hP := projectOne_lt (g := row g n (proj B i)) (by rwa [row_length]) (x.get (0 :: proj S i))
    rw [row_length] at hP
    refine ⟨rfl, ?_⟩
    simp only [Tens.map, proj_ones_zero, List.headD_cons, List.tail_cons, q (Le.refl _), q hZ.1.1, q hZ.1.2]
    unfold weight1
    generalize projectOne (row g n (proj B i)) (x.get (0 :: proj S i)) = P at hP ⊢
    rw [at_diff _ _ (by rwa [row_length]), at_row _ _ _ _ hP, at_row _ _ _ _ (by omega)]

/-- What the code computes along all dimensions. -/
theorem ndParts_run {x : Tens ℝ} {S Z : Shape} (hx : x.shape.tail = S) : ∀ (gs : List (Tens ℝ)) (k : ℕ),
    (∀ g ∈ gs, ∃ n B, g.shape = n :: B ∧ 2 ≤ n ∧ bc B S = some Z) →
    ∃ idxs ws, ndParts x gs k = .ok (idxs, ws) ∧ idxs.length = gs.length ∧ ws.length = gs.length ∧
      (∀ t ∈ idxs, t.shape = 1 :: Z) ∧ (∀ t ∈ ws, t.shape = 1 :: Z) ∧
      ∀ i, Z.length ≤ i.length →
        (idxs.map fun u => u.get (0 :: i)) = List.zipWith projectOne
          (gs.map fun g => row g (npoints g) (proj g.shape.tail i)) ((List.range' k gs.length).map fun k => x.get (k :: proj S i)) ∧
        (ws.map fun u => u.get (0 :: i)) = List.zipWith weight1
          (gs.map fun g => row g (npoints g) (proj g.shape.tail i)) ((List.range' k gs.length).map fun k => x.get (k :: proj S i))
  | [], k, _ => ⟨[], [], rfl, rfl, rfl, by simp, by simp, by simp⟩
  | g :: gs, k, h => by
    obtain ⟨n, B, hg, hn, hb⟩ := h g (by simp)
    obtain ⟨idx, w, h1, h2, h3, h4⟩ := ndOne_run (x := splitAt x k) hg hn (by simp [splitAt, hx]) hb
    obtain ⟨idxs, ws, h5, h6, h7, h8, h9, h10⟩ := ndParts_run hx gs (k + 1) fun g hg => h g (by simp [hg])
    refine ⟨idx :: idxs, w :: ws, by simp [ndParts, h1, h5, bind, Except.bind, pure, Except.pure], by simp [h6], by simp [h7],
      by simpa [h2] using h8, by simpa [h3] using h9, fun i hi => ?_⟩
    obtain ⟨h11, h12⟩ := h10 i hi
    obtain ⟨h13, h14⟩ := h4 i hi
    simp [List.range'_succ, h11, h12, h13, h14, hg, npoints, splitAt]

theorem stack_run {α : Type} {l : List (Tens α)} {s : Shape} (hl : l ≠ []) (h : ∀ t ∈ l, t.shape = s) :
    stack l = .ok ⟨s, fun i => l.map fun u => u.get i⟩ := by
  cases l with
  | nil => simp at hl
  | cons t ts =>
    have : ∀ u ∈ ts, u.shape = t.shape := fun u hu => by rw [h u (by simp [hu]), h t (by simp)]
    rw [stack, if_pos this, h t (by simp)]

theorem lastDims_run : ∀ (gs : List (Tens ℝ)), (∀ g ∈ gs, g.shape ≠ []) →
    lastDims (gs.map (·.shape)) = .ok (gs.map npoints, gs.map (·.shape.tail))
  | [], _ => rfl
  | g :: gs, h => by
    have h1 := lastDims_run gs fun g hg => h g (by simp [hg])
    rcases hs : g.shape with _ | ⟨n, B⟩
    · exact absurd hs (h g (by simp))
    · simp [lastDims, lastDim, hs, h1, npoints, bind, Except.bind, pure, Except.pure]

variable {grids : List (Tens ℝ)} {values x : Tens ℝ} {C V S : Shape}

/-- Construction. -/
theorem ndNew_run (hg : ∀ g ∈ grids, g.shape ≠ []) (hv : values.shape = (grids.map npoints).reverse ++ (C ++ V)) :
    Nd.new grids values C.length =
      match bcAll (grids.map (·.shape.tail) ++ [V]) with
      | some _ => .ok ⟨grids, values, C.length⟩
      | none => .error .runtime := by
  have h0 : ¬ ((C.length : ℤ) < 0) := by omega
  have h1 : values.shape.take (grids.map npoints).reverse.length = (grids.map npoints).reverse := by
    rw [hv]; exact List.take_left' rfl
  have h2 : values.shape.drop (grids.map npoints).reverse.length = C ++ V := by
    rw [hv]; exact List.drop_left' rfl
  simp only [Nd.new, init, lastDims_run grids hg, bind, Except.bind, pure, Except.pure, h1, h2, ne_eq, not_true_eq_false,
    ↓reduceIte, h0, Int.toNat_natCast, List.drop_left, List.take_left]
  cases bcAll (grids.map (·.shape.tail) ++ [V]) <;> rfl

theorem zipWith_map_same {α : Type} (l : List α) (f : α → ℝ) (g : α → ℝ) :
    List.zipWith (· * ·) (l.map f) (l.map g) = l.map fun a => f a * g a := by
  induction l with
  | nil => rfl
  | cons a l ih => simp [ih]

/-- **C134** `LinearNDGridInterpolator(grids, values, channel_ndim)(x)`: with grids of shapes `(B_k..., n_k)`, values of shape
`(V..., C..., n_1, ..., n_d)` and points of shape `(S..., d)`, where every `B_k` broadcasts with `S` to the *same* shape `Z1`
and `V` with that to `Z`, the result has the shape `(Z..., C...)` and every entry is the interpolation of the one table of
values on the grids at the one point that belong to its index. -/
theorem C134_nd (hne : grids ≠ []) (hg : ∀ g ∈ grids, ∃ n B, g.shape = n :: B ∧ 2 ≤ n)
    (hv : values.shape = (grids.map npoints).reverse ++ (C ++ V)) (hx : x.shape = grids.length :: S) {Z1 Z : Shape}
    (h1 : ∀ g ∈ grids, bc g.shape.tail S = some Z1) (h2 : bc V Z1 = some Z) :
    ∃ L r, Nd.new grids values C.length = .ok L ∧ L.call x = .ok r ∧ r.shape = C ++ Z ∧
      ∀ c i, Valid C c → Valid Z i →
        r.get (c ++ i) = linearNd (grids.map fun g => row g (npoints g) (proj g.shape.tail i))
          (table (grids.map npoints) fun idx => values.get (idx.reverse ++ (c ++ proj V i)))
          ((List.range grids.length).map fun k => x.get (k :: proj S i)) := by
  have hZ := bc_eq_some.1 h2
  have hBZ : ∀ g ∈ grids, Le g.shape.tail Z := fun g h => (bc_eq_some.1 (h1 g h)).1.1.trans hZ.1.2
  obtain ⟨W, hW, -⟩ := bcAll_of_le (l := grids.map (·.shape.tail) ++ [V]) (W := Z) (by
    intro s hs
    rcases List.mem_append.1 hs with hs | hs
    · obtain ⟨g, h, rfl⟩ := List.mem_map.1 hs; exact hBZ g h
    · rw [List.mem_singleton.1 hs]; exact hZ.1.1)
  refine ⟨⟨grids, values, C.length⟩, ?_⟩
  have hnew := ndNew_run (V := V) (C := C) (fun g h => by obtain ⟨n, B, e, -⟩ := hg g h; simp [e]) hv
  rw [hW] at hnew
  obtain ⟨idxs, ws, e1, e2, e3, e4, e5, e6⟩ := ndParts_run (x := x) (S := S) (Z := Z1) (by rw [hx]; rfl) grids 0 (by
    intro g h
    obtain ⟨n, B, e, hn⟩ := hg g h
    exact ⟨n, B, e, hn, by have := h1 g h; rwa [e] at this⟩)
  have hl : 0 < grids.length := List.length_pos_iff.2 hne
  have e7 := stack_run (l := idxs) (by intro h; rw [h] at e2; simp at e2; omega) e4
  have e8 := stack_run (l := ws) (by intro h; rw [h] at e3; simp at e3; omega) e5
  have hdrop : values.shape.drop grids.length = C ++ V := by
    rw [hv]; exact List.drop_left' (by simp)
  have f1 : bc (C ++ V) (List.replicate C.length 1 ++ Z1) = some (C ++ Z) := by rw [bc_append_ones, h2]; rfl
  have f2 : bc (List.replicate C.length 1 ++ Z1) (C ++ Z) = some (C ++ Z) := by
    rw [bc_ones_append, bc_absorb hZ.1.2]; rfl
  have f3 : bc (C ++ Z) (List.replicate C.length 1 ++ Z1) = some (C ++ Z) := by
    rw [bc_append_ones, bc_absorb' hZ.1.2]; rfl
  refine ⟨?res, hnew, ?hrun, ?hshape, ?hget⟩
  case hrun =>
    simp only [Nd.call, lastDim, hx, bind, Except.bind, pure, Except.pure, ne_eq, not_true_eq_false, ↓reduceIte, e1, e7, e8,
      unsqueezeChannels, Tens.map, gatherCorners, flattenLast, hdrop, List.length_map, List.take_succ_cons, List.take_zero,
      List.drop_succ_cons, List.drop_zero, List.cons_append, List.nil_append, f1, f2, f3, orRuntime, map2, bc, Option.map_some,
      squeezeLast, List.tail_cons]
    rfl
  case hshape => rfl
  case hget =>
    intro c i hc hi
    have hcl : c.length = C.length := hc.length_eq
    have hpC : proj C c = c := proj_valid hc
    have hil : i.length = Z.length := hi.length_eq
    have hlen : Z1.length ≤ i.length := by rw [hil]; exact hZ.1.2.length
    have hC : ∀ W j, proj (C ++ W) (c ++ j) = c ++ proj W j := fun W j => by rw [proj_append hcl.symm, hpC]
    have hR : ∀ W j, proj (List.replicate C.length 1 ++ W) (c ++ j) = List.replicate C.length 0 ++ proj W j :=
      fun W j => by rw [proj_append (by simp [hcl]), proj_ones hcl.symm]
    have hD : ∀ (k : ℕ) (l : List ℕ), (k :: (List.replicate C.length 0 ++ l)).drop (1 + C.length) = l := fun k l => by
      rw [Nat.add_comm, List.drop_succ_cons]
      exact List.drop_left' (by simp)
    have q1 : ∀ {W}, Le W Z → proj W (proj Z i) = proj W i := fun h => proj_proj h (by omega)
    have q2 : ∀ {W}, Le W Z1 → proj W (proj Z1 i) = proj W i := fun h => proj_proj h hlen
    have hz : Z1.length ≤ (proj Z1 i).length := by rw [proj_length hlen]
    obtain ⟨g1, g2⟩ := e6 (proj Z1 i) hz
    have hrows : (grids.map fun g => row g (npoints g) (proj g.shape.tail (proj Z1 i))) =
        grids.map fun g => row g (npoints g) (proj g.shape.tail i) := by
      refine List.map_congr_left fun g h => ?_
      rw [q2 (bc_eq_some.1 (h1 g h)).1.1]
    obtain ⟨g0, hg0⟩ := List.exists_mem_of_ne_nil _ hne
    have hSl : Le S Z1 := (bc_eq_some.1 (h1 g0 hg0)).1.2
    rw [hrows, q2 hSl] at g1 g2
    have hlens : (grids.map fun g => row g (npoints g) (proj g.shape.tail i)).map List.length = grids.map npoints := by
      simp [row]
    simp only [proj_ones_zero, hC, hR, hD, List.headD_cons, List.tail_cons, List.take_succ_cons, List.take_zero,
      List.cons_append, List.nil_append, q1 (Le.refl _), q1 hZ.1.2, q1 hZ.1.1, g1, g2, List.map_map, zipWith_map_same]
    unfold linearNd
    simp only [hlens, List.length_map, List.range_eq_range', Function.comp_def]

/-- Shapes along all dimensions, or the failure of one. -/
theorem ndParts_shapes {x : Tens ℝ} {S : Shape} (hx : x.shape.tail = S) : ∀ (gs : List (Tens ℝ)) (k : ℕ),
    (∀ g ∈ gs, ∃ n B, g.shape = n :: B ∧ 2 ≤ n) → ndParts x gs k = .error .runtime ∨
    ∃ idxs ws, ndParts x gs k = .ok (idxs, ws) ∧
      List.Forall₂ (fun g (t : Tens ℕ) => ∃ Z, bc g.shape.tail S = some Z ∧ t.shape = 1 :: Z) gs idxs
  | [], k, _ => .inr ⟨[], [], rfl, .nil⟩
  | g :: gs, k, h => by
    obtain ⟨n, B, hg, hn⟩ := h g (by simp)
    rcases hb : bc B S with _ | Z
    · left
      simp [ndParts, ndOne, projectOneT, lastDim, splitAt, hx, hg, hb, orRuntime, bind, Except.bind]
    · obtain ⟨idx, w, h1, h2, h3, h4⟩ := ndOne_run (x := splitAt x k) hg hn (by simp [splitAt, hx]) hb
      rcases ndParts_shapes hx gs (k + 1) fun g hg => h g (by simp [hg]) with h5 | ⟨idxs, ws, h5, h6⟩
      · left
        simp [ndParts, h1, h5, bind, Except.bind]
      · right
        exact ⟨idx :: idxs, w :: ws, by simp [ndParts, h1, h5, bind, Except.bind, pure, Except.pure],
          .cons ⟨Z, by rw [hg]; exact hb, h2⟩ h6⟩

/-- **C134** in all other cases the code raises `RuntimeError`. In particular grids with different batch shapes are not
broadcast against each other: the points must bring the full batch shape along. -/
theorem C134_nd_raises (hne : grids ≠ []) (hg : ∀ g ∈ grids, ∃ n B, g.shape = n :: B ∧ 2 ≤ n)
    (hv : values.shape = (grids.map npoints).reverse ++ (C ++ V)) (hx : x.shape = grids.length :: S)
    (h : ¬ ∃ Z1 Z, (∀ g ∈ grids, bc g.shape.tail S = some Z1) ∧ bc V Z1 = some Z) :
    (do let L ← Nd.new grids values C.length; L.call x) = .error .runtime := by
  rw [ndNew_run (V := V) (C := C) (fun g h => by obtain ⟨n, B, e, -⟩ := hg g h; simp [e]) hv]
  rcases bcAll (grids.map (·.shape.tail) ++ [V]) with _ | W
  · rfl
  simp only [bind, Except.bind]
  rcases ndParts_shapes (x := x) (S := S) (by rw [hx]; rfl) grids 0 hg with h1 | ⟨idxs, ws, h1, h2⟩
  · simp only [Nd.call, lastDim, hx, bind, Except.bind, ne_eq, not_true_eq_false, ↓reduceIte, h1]
  by_cases heq : ∃ Z1, ∀ g ∈ grids, bc g.shape.tail S = some Z1
  · obtain ⟨Z1, h3⟩ := heq
    obtain ⟨idxs, ws, e1, e2, e3, e4, e5, e6⟩ := ndParts_run (x := x) (S := S) (Z := Z1) (by rw [hx]; rfl) grids 0 (by
      intro g h
      obtain ⟨n, B, e, hn⟩ := hg g h
      exact ⟨n, B, e, hn, by have := h3 g h; rwa [e] at this⟩)
    have hl : 0 < grids.length := List.length_pos_iff.2 hne
    have e7 := stack_run (l := idxs) (by intro h; rw [h] at e2; simp at e2; omega) e4
    have e8 := stack_run (l := ws) (by intro h; rw [h] at e3; simp at e3; omega) e5
    have hdrop : values.shape.drop grids.length = C ++ V := by
      rw [hv]; exact List.drop_left' (by simp)
    have h4 : bc V Z1 = none := by
      rcases h4 : bc V Z1 with _ | Z
      · rfl
      · exact absurd ⟨Z1, Z, h3, h4⟩ h
    have f1 : bc (C ++ V) (List.replicate C.length 1 ++ Z1) = none := by rw [bc_append_ones, h4]; rfl
    simp only [Nd.call, lastDim, hx, bind, Except.bind, pure, Except.pure, ne_eq, not_true_eq_false, ↓reduceIte, e1, e7, e8,
      unsqueezeChannels, Tens.map, gatherCorners, flattenLast, hdrop, List.length_map, List.take_succ_cons, List.take_zero,
      List.drop_succ_cons, List.drop_zero, List.cons_append, List.nil_append, f1, orRuntime]
  · have h3 : stack idxs = .error .runtime := by
      cases h2 with
      | nil => rfl
      | cons h4 h5 =>
        rename_i g gs t ts
        obtain ⟨Z, hZ, ht⟩ := h4
        rw [stack, if_neg]
        intro hall
        refine heq ⟨Z, fun g' hg' => ?_⟩
        rcases List.mem_cons.1 hg' with rfl | hg'
        · exact hZ
        · clear h1 heq h hv hx hne hg
          induction h5 with
          | nil => simp at hg'
          | cons h6 h7 ih =>
            obtain ⟨Z', hZ', ht'⟩ := h6
            rcases List.mem_cons.1 hg' with rfl | hg'
            · have := hall _ (List.mem_cons_self ..)
              rw [ht, ht'] at this
              rw [hZ', (List.cons.inj this).2]
            · exact ih (fun u hu => hall u (by simp [hu])) (by simp [hg']) hg'
    simp only [Nd.call, lastDim, hx, bind, Except.bind, ne_eq, not_true_eq_false, ↓reduceIte, h1, h3]

/-- **C134** values whose last dimensions are not the sizes of the grids raise `AssertionError` at construction, points whose
last dimension is not the number of grids at the call. -/
theorem C134_nd_assertion (hg : ∀ g ∈ grids, g.shape ≠ []) (k : ℤ) :
    (values.shape.take grids.length ≠ (grids.map npoints).reverse → Nd.new grids values k = .error .assertion) ∧
    (∀ L, Nd.new grids values k = .ok L → ∀ d, x.shape = d :: S → d ≠ grids.length → L.call x = .error .assertion) := by
  constructor
  · intro h
    simp [Nd.new, init, lastDims_run grids hg, bind, Except.bind, pure, Except.pure, h]
  · intro L hL d hx hd
    have : L.grids = grids := by
      simp only [Nd.new, bind, Except.bind, pure, Except.pure] at hL
      split at hL
      · cases hL
      · cases hL; rfl
    simp [Nd.call, lastDim, hx, bind, Except.bind, this, hd]

/-- A table of shape `(3, 2)` with two channels on grids without batch dimensions, seven points. -/
example (g1 g2 v x : Tens ℝ) (h1 : g1.shape = [3]) (h2 : g2.shape = [2]) (hv : v.shape = [2, 3, 2]) (hx : x.shape = [2, 7]) :
    ∃ L r, Nd.new [g1, g2] v 1 = .ok L ∧ L.call x = .ok r ∧ r.shape = [2, 7] ∧ ∀ c i, c < 2 → i < 7 →
      r.get [c, i] = linearNd [row g1 3 [], row g2 2 []] (table [3, 2] fun idx => v.get (idx.reverse ++ [c]))
        [x.get [0, i], x.get [1, i]] := by
  obtain ⟨L, r, e1, e2, e3, e4⟩ := C134_nd (grids := [g1, g2]) (values := v) (x := x) (C := [2]) (V := []) (S := [7]) (Z1 := [7])
    (Z := [7]) (by simp) (by simp [h1, h2]) (by simp [npoints, h1, h2, hv]) (by simp [hx]) (by simp [h1, h2]; decide) (by decide)
  refine ⟨L, r, e1, e2, e3, fun c i hc hi => ?_⟩
  have := e4 [c] [i] (.cons hc .nil) (.cons hi .nil)
  simpa [npoints, h1, h2, proj, List.range_succ] using this

/-- A batch of five grids in one of the two dimensions only: points without the batch dimension raise. -/
example (g1 g2 v x : Tens ℝ) (h1 : g1.shape = [3, 5]) (h2 : g2.shape = [2]) (hv : v.shape = [2, 3]) (hx : x.shape = [2]) :
    (do let L ← Nd.new [g1, g2] v 0; L.call x) = .error .runtime := by
  refine C134_nd_raises (grids := [g1, g2]) (values := v) (x := x) (C := []) (V := []) (S := []) (by simp) (by simp [h1, h2])
    (by simp [npoints, h1, h2, hv]) (by simp [hx]) ?_
  rintro ⟨Z1, Z, h, -⟩
  have a := h g1 (by simp)
  have b := h g2 (by simp)
  simp [h1, h2, bc] at a b
  subst a; cases b

end Verif.Interp.Batch
