import Verif.Interp.BatchNd
import Verif.Interp.Dist

/-! # C137: sampling from distributions on grids, with batches -/

namespace Verif.Interp.Batch

open Verif.Tensor

/-! ### Model -/

/-- `len(g)`: the *first* dimension (for a tensor that has one). -/
def len (g : Tens ℝ) : ℕ := g.shape.getLast?.getD 0

/-- One of the `marginal_cprobs` (distributions/__init__.py:25-32): `pre`, `n`, `post` are the sizes of the grid dimensions
before, at and after the one along which it is cumulative; the dimensions before it are summed over, the batch dimensions
are kept. -/
noncomputable def marginalT (probs : Tens ℝ) (pre : List ℕ) (n : ℕ) (post : List ℕ) : Tens ℝ :=
  ⟨post.reverse ++ n :: probs.shape.drop (pre.length + 1 + post.length), fun i =>
    at' (cprobs (mprob (fun idx => probs.get (idx.reverse ++ i.drop (post.length + 1))) pre n (i.take post.length).reverse))
      (i.getD post.length 0)⟩

/-- `cinterps` (distributions/__init__.py:33-36): `rev` are the grids from the next-to-last to the first, `post` the ones after. -/
noncomputable def cinterpsT (probs : Tens ℝ) : List (Tens ℝ) → List (Tens ℝ) → Except Err (List Nd)
  | g :: rev, post => do
    let c ← Nd.new post (marginalT probs (rev.reverse.map len) (len g) (post.map len)) 1
    let cs ← cinterpsT probs rev (g :: post)
    return c :: cs
  | [], _ => .ok []

/-- Attributes of an `NDIDistribution`. -/
structure NDI where
  grids : List (Tens ℝ)
  interp0 : Lin
  cinterps : List Nd
  batch : Shape

/-- `NDIDistribution(grids, probs)` (distributions/__init__.py:16-42), for at least one grid. `len` of a 0-dimensional tensor
raises `TypeError`. -/
noncomputable def NDI.new (grids : List (Tens ℝ)) (probs : Tens ℝ) : Except Err NDI :=
  if ∃ g ∈ grids, g.shape = [] then .error .type
  else if probs.shape.take grids.length ≠ (grids.map len).reverse then .error .assertion
  else match grids.reverse with
    | [] => .error .index
    | g :: rev => do
      let cs ← cinterpsT probs rev [g]
      let i0 ← Lin.new (marginalT probs (rev.reverse.map len) (len g) []) g 0
      let b ← orRuntime (bcAll (grids.map (·.shape.tail) ++ [probs.shape.drop grids.length]))
      return ⟨grids, i0, cs, b⟩

/-- `torch.cat((a, b), -1)`. -/
def catLast (a b : Tens ℝ) : Except Err (Tens ℝ) := do
  let (m, s) ← lastDim a.shape
  let (k, t) ← lastDim b.shape
  if s ≠ t then .error .runtime
  else return ⟨(m + k) :: s, fun i => if i.headD 0 < m then a.get i else b.get ((i.headD 0 - m) :: i.tail)⟩

/-- The items of the generator in `icdf` (distributions/__init__.py:54-61), `x` being the coordinates so far. -/
noncomputable def itemsT : List Nd → List (Tens ℝ) → List (Tens ℝ) → Tens ℝ → Except Err (List (Tens ℝ))
  | c :: cs, g :: rev, u :: us, x => do
    let cp ← c.call x
    let L ← Lin.new cp g 0
    let y ← L.call u
    let x' ← catLast (unsqueezeLast y) x
    let rest ← itemsT cs rev us x'
    return x' :: rest
  | _, _, _, _ => .ok []

/-- `icdf(value)` (distributions/__init__.py:53-61). -/
noncomputable def NDI.icdf (D : NDI) (us : List (Tens ℝ)) : Except Err (Tens ℝ) :=
  match us with
  | [] => .error .index
  | u :: us => do
    let x ← D.interp0.call u
    let items ← itemsT D.cinterps D.grids.reverse.tail us (unsqueezeLast x)
    match items.getLast? with
    | some r => .ok r
    | none => .error .value

/-- `rsample(sample_shape)` (distributions/__init__.py:44-45): `rand` are the entries of `torch.rand(...)`, whose *first*
dimension, that of the coordinates, is the last of the index here. -/
noncomputable def NDI.rsample (D : NDI) (sample : Shape) (rand : List ℕ → ℝ) : Except Err (Tens ℝ) :=
  D.icdf ((List.range D.grids.length).map fun k => ⟨D.batch ++ sample, fun i => rand (i ++ [k])⟩)

/-! ### Theorems -/

/-- A grid without batch dimensions and with at least two points. -/
def Plain (g : Tens ℝ) : Prop := ∃ n, g.shape = [n] ∧ 2 ≤ n

/-- The coordinates at a batch index. -/
def coords (x : Tens ℝ) (i : List ℕ) : List ℝ := (List.range (x.shape.headD 0)).map fun k => x.get (k :: i)

/-- The points of a grid without batch dimensions. -/
def pts (g : Tens ℝ) : List ℝ := row g (npoints g) []

theorem Plain.len {g : Tens ℝ} (h : Plain g) : len g = npoints g := by
  obtain ⟨n, h, -⟩ := h; simp [Batch.len, npoints, h]

theorem Plain.shape {g : Tens ℝ} (h : Plain g) : g.shape = [npoints g] ∧ 2 ≤ npoints g := by
  obtain ⟨n, h, hn⟩ := h; simp [npoints, h, hn]

theorem map_len {gs : List (Tens ℝ)} (h : ∀ g ∈ gs, Plain g) : gs.map len = gs.map npoints :=
  List.map_congr_left fun g hg => (h g hg).len

theorem table_congr (sh : List ℕ) (F G : List ℕ → ℝ) (h : ∀ idx, idx.length = sh.length → F idx = G idx) : table sh F = table sh G := by
  induction sh generalizing F G with
  | nil => simp [table, h []]
  | cons s sh ih =>
    simp only [table]
    refine List.flatMap_congr fun i _ => ih _ _ fun idx hi => h _ (by simp [hi])

theorem marginalT_get (probs : Tens ℝ) (pre : List ℕ) (n : ℕ) (post idx : List ℕ) (h : idx.length = post.length) (j : ℕ) (v : List ℕ) :
    (marginalT probs pre n post).get (idx.reverse ++ (j :: v)) =
      at' (cprobs (mprob (fun idx => probs.get (idx.reverse ++ v)) pre n idx)) j := by
  have h1 : (idx.reverse ++ (j :: v)).drop (post.length + 1) = v := by
    rw [List.drop_append, List.drop_of_length_le (by simp [h])]; simp [h]
  have h2 : (idx.reverse ++ (j :: v)).take post.length = idx.reverse := List.take_left' (by simp [h])
  have h3 : (idx.reverse ++ (j :: v)).getD post.length 0 = j := by
    rw [List.getD_append_right _ _ _ _ (by simp [h])]; simp [h]
  simp only [marginalT, h1, h2, h3, List.reverse_reverse]

variable {probs : Tens ℝ} {V T Z : Shape}

theorem bc_nil_left (s : Shape) : bc [] s = some s := by simp [bc]

/-- One conditional distribution. -/
theorem cond_run {post rev : List (Tens ℝ)} {g : Tens ℝ} (hpost : ∀ g ∈ post, Plain g) (hne : post ≠ []) (hg : Plain g)
    (hrev : ∀ g ∈ rev, Plain g) (hp : probs.shape = ((rev.reverse ++ g :: post).map npoints).reverse ++ V) {x : Tens ℝ}
    (hx : x.shape = post.length :: Z) (hVZ : Le V Z) :
    ∃ c cp, Nd.new post (marginalT probs (rev.reverse.map len) (len g) (post.map len)) 1 = .ok c ∧ c.call x = .ok cp ∧
      cp.shape = npoints g :: Z ∧ ∀ i, Valid Z i → row cp (npoints g) i =
        condCprobs (fun idx => probs.get (idx.reverse ++ proj V i)) (rev.reverse.map npoints) (npoints g) (post.map pts) (coords x i) := by
  have hm : (marginalT probs (rev.reverse.map len) (len g) (post.map len)).shape =
      (post.map npoints).reverse ++ ([npoints g] ++ V) := by
    simp only [marginalT, map_len hpost, hg.len, hp, List.length_map, List.length_reverse]
    rw [List.drop_left' (by simp; omega)]
    simp
  obtain ⟨c, cp, h1, h2, h3, h4⟩ := C134_nd (grids := post) (values := marginalT probs (rev.reverse.map len) (len g) (post.map len))
    (x := x) (C := [npoints g]) (V := V) (S := Z) (Z1 := Z) (Z := Z) hne
    (fun g h => ⟨npoints g, [], (hpost g h).shape⟩) hm hx
    (fun g h => by rw [(hpost g h).shape.1]; exact bc_nil_left Z) (bc_absorb hVZ)
  refine ⟨c, cp, by simpa using h1, h2, h3, fun i hi => ?_⟩
  unfold row condCprobs
  refine List.map_congr_left fun j hj => ?_
  have hj : j < npoints g := List.mem_range.1 hj
  have := h4 [j] i (.cons hj .nil) hi
  rw [List.singleton_append] at this
  rw [this]
  have e1 : (post.map fun g => row g (npoints g) (proj g.shape.tail i)) = post.map pts :=
    List.map_congr_left fun g h => by rw [(hpost g h).shape.1]; rfl
  have e2 : ((post.map pts).map List.length) = post.map npoints := by
    simp [pts, row_length, Function.comp_def]
  have e3 : (List.range post.length).map (fun k => x.get (k :: proj Z i)) = coords x i := by
    simp [coords, hx, proj_valid hi]
  rw [e1, e2, e3]
  congr 1
  refine table_congr _ _ _ fun idx hidx => ?_
  rw [List.singleton_append, marginalT_get _ _ _ _ _ (by simpa using hidx), map_len (gs := rev.reverse) (by simpa using hrev), hg.len]

theorem catLast_run {y x : Tens ℝ} {k : ℕ} (hy : y.shape = Z) (hx : x.shape = k :: Z) :
    ∃ r, catLast (unsqueezeLast y) x = .ok r ∧ r.shape = (k + 1) :: Z ∧ ∀ i, coords r i = y.get i :: coords x i := by
  refine ⟨?res, ?hrun, ?hs, ?hg⟩
  case hrun =>
    simp only [catLast, unsqueezeLast, lastDim, hx, hy, bind, Except.bind, pure, Except.pure, ne_eq, not_true_eq_false, ↓reduceIte]
    rfl
  case hs => simp [Nat.add_comm]
  case hg =>
    intro i
    simp only [coords, List.headD_cons, hx]
    rw [Nat.add_comm 1 k, List.range_succ_eq_map]
    simp [Function.comp_def]

theorem linNew_call {X Y u : Tens ℝ} {n : ℕ} (hX : X.shape = n :: Z) (hY : Y.shape = [n]) (hn : 2 ≤ n) (hu : u.shape = T) {W : Shape}
    (hW : bc Z T = some W) : ∃ L r, Lin.new X Y 0 = .ok L ∧ L.call u = .ok r ∧ r.shape = W ∧
      ∀ i, Valid W i → r.get i = linear1d (row X n (proj Z i)) (row Y n []) (u.get (proj T i)) := by
  have hb := bc_eq_some.1 hW
  obtain ⟨L, r, h1, h2, h3, h4⟩ := C133_linear1d (X := X) (Y := Y) (x := u) (C := []) (V := []) (Z := W) hX (by simpa using hY) hn
    (bcAll_eq_some.2 ⟨by simp [hb.1.1, hu, hb.1.2, Le], fun Q h => hb.2 Q (h Z (by simp)) (hu ▸ h u.shape (by simp))⟩)
  refine ⟨L, r, by simpa using h1, h2, by simpa using h3, fun i hi => ?_⟩
  have := h4 [] i .nil hi
  simpa [hu, proj] using this

/-- The recursion of `icdf`, at every batch index. -/
theorem items_run : ∀ (rev us post : List (Tens ℝ)) (x : Tens ℝ), (∀ g ∈ post, Plain g) → post ≠ [] → (∀ g ∈ rev, Plain g) →
    probs.shape = ((rev.reverse ++ post).map npoints).reverse ++ V → us.length = rev.length → (∀ u ∈ us, u.shape = T) →
    bc V T = some Z → x.shape = post.length :: Z →
    ∃ cs items, cinterpsT probs rev post = .ok cs ∧ itemsT cs rev us x = .ok items ∧
      (rev = [] → items = []) ∧
      (rev ≠ [] → ∃ t, items.getLast? = some t ∧ t.shape = (rev.length + post.length) :: Z ∧ ∀ i, Valid Z i →
        (icdfItems (fun idx => probs.get (idx.reverse ++ proj V i)) (rev.map pts) (us.map fun u => u.get (proj T i)) (post.map pts)
          (coords x i)).getLast? = some (coords t i))
  | [], us, post, x, _, _, _, _, _, _, _, _ => ⟨[], [], rfl, rfl, fun _ => rfl, fun h => absurd rfl h⟩
  | g :: rev, us, post, x, hpost, hne, hrev, hp, hl, hu, hZ, hx => by
    rcases us with _ | ⟨u, us⟩
    · simp at hl
    have hb := bc_eq_some.1 hZ
    have hg := hrev g (by simp)
    have hrev' : ∀ g ∈ rev, Plain g := fun g h => hrev g (by simp [h])
    obtain ⟨c, cp, h1, h2, h3, h4⟩ := cond_run hpost hne hg hrev' (by simpa using hp) hx hb.1.1
    obtain ⟨L, y, h5, h6, h7, h8⟩ := linNew_call h3 hg.shape.1 hg.shape.2 (hu u (by simp)) (bc_absorb' hb.1.2)
    obtain ⟨x', h9, h10, h11⟩ := catLast_run h7 hx
    obtain ⟨cs, items, h12, h13, h14, h15⟩ := items_run rev us (g :: post) x' (by simpa using ⟨hg, hpost⟩) (by simp) hrev'
      (by simpa using hp) (by simpa using hl) (fun v hv => hu v (by simp [hv])) hZ (by simpa using h10)
    refine ⟨c :: cs, x' :: items, by simp only [cinterpsT, h1, h12, bind, Except.bind, pure, Except.pure],
      by simp [itemsT, h2, h5, h6, h9, h13, bind, Except.bind, pure, Except.pure], by simp, fun _ => ?_⟩
    have key : ∀ i, Valid Z i → coords x' i = linear1d (condCprobs (fun idx => probs.get (idx.reverse ++ proj V i))
        ((rev.map pts).reverse.map List.length) (pts g).length (post.map pts) (coords x i)) (pts g) (u.get (proj T i)) :: coords x i := by
      intro i hi
      rw [h11, h8 i hi, proj_valid hi, h4 i hi]
      have e1 : (rev.map pts).reverse.map List.length = rev.reverse.map npoints := by
        simp [pts, row_length, Function.comp_def]
      have e2 : (pts g).length = npoints g := by simp [pts, row_length]
      rw [e1, e2]
      rfl
    by_cases hr : rev = []
    · subst hr
      have hus : us = [] := by simpa using hl
      subst hus
      rw [h14 rfl]
      refine ⟨x', rfl, by simpa [Nat.add_comm] using h10, fun i hi => ?_⟩
      rw [key i hi]
      simp [icdfItems]
    · obtain ⟨t, h16, h17, h18⟩ := h15 hr
      refine ⟨t, by rw [List.getLast?_cons, h16]; rfl, by rw [h17]; simp; omega, fun i hi => ?_⟩
      have := h18 i hi
      rw [List.map_cons, List.map_cons, icdfItems, List.getLast?_cons]
      simp only [List.map_cons] at this
      rw [← key i hi, this]
      rfl

/-- **C137** `NDIDistribution(grids, probs).icdf(value)` for grids of shapes `(n_1,), ..., (n_d,)`, `d ≥ 2`, probabilities of shape
`(V..., n_1, ..., n_d)` and `d` tensors of shape `T`: the result has the shape `(Z..., d)`, `Z` being the broadcast of `V` and
`T`, and its coordinates at every index are the point that the distribution with the one table of probabilities returns for the
`d` numbers that belong to this index. -/
theorem C137_icdf {grids us : List (Tens ℝ)} (hg : ∀ g ∈ grids, Plain g) (hd : 2 ≤ grids.length)
    (hp : probs.shape = (grids.map npoints).reverse ++ V) (hl : us.length = grids.length) (hu : ∀ u ∈ us, u.shape = T)
    (hZ : bc V T = some Z) :
    ∃ D r, NDI.new grids probs = .ok D ∧ D.grids = grids ∧ D.batch = V ∧ D.icdf us = .ok r ∧ r.shape = grids.length :: Z ∧
      ∀ i, Valid Z i → Interp.icdf (grids.map pts) (fun idx => probs.get (idx.reverse ++ proj V i)) (us.map fun u => u.get (proj T i)) =
        .ok (coords r i) := by
  obtain ⟨rev, rfl⟩ : ∃ rev, grids = rev.reverse := ⟨grids.reverse, by simp⟩
  rcases rev with _ | ⟨g, rev⟩
  · simp at hd
  rcases us with _ | ⟨u, us⟩
  · simp at hl
  have hgg : Plain g := hg g (by simp)
  have hrev : ∀ g ∈ rev, Plain g := fun g' h => hg g' (by simp [h])
  have hne : rev ≠ [] := by rintro rfl; simp at hd
  have hm : (marginalT probs (rev.reverse.map len) (len g) []).shape = npoints g :: V := by
    simp only [marginalT, hgg.len, hp, List.length_map, List.length_reverse]
    rw [List.drop_left' (by simp)]
    simp
  obtain ⟨L, y, h1, h2, h3, h4⟩ := linNew_call hm hgg.shape.1 hgg.shape.2 (hu u (by simp)) hZ
  obtain ⟨cs, items, h5, h6, -, h7⟩ := items_run (probs := probs) (V := V) (T := T) (Z := Z) rev us [g] (unsqueezeLast y)
    (by simpa using hgg) (by simp) hrev (by simpa using hp) (by simpa using hl) (fun v hv => hu v (by simp [hv])) hZ
    (by simp [unsqueezeLast, h3])
  obtain ⟨r, h8, h9, h10⟩ := h7 hne
  have hns : ¬ ∃ g' ∈ (g :: rev).reverse, g'.shape = [] := by
    rintro ⟨g', h, h'⟩
    rw [(hg g' h).shape.1] at h'
    cases h'
  have ht : ¬ probs.shape.take (g :: rev).reverse.length ≠ ((g :: rev).reverse.map len).reverse := by
    rw [not_not, hp, map_len hg]; exact List.take_left' (by simp)
  have hb : bcAll ((g :: rev).reverse.map (·.shape.tail) ++ [probs.shape.drop (g :: rev).reverse.length]) = some V := by
    rw [hp, List.drop_left' (by simp), bcAll_eq_some]
    constructor
    · intro s hs
      rcases List.mem_append.1 hs with hs | hs
      · obtain ⟨g', h, rfl⟩ := List.mem_map.1 hs
        rw [(hg g' h).shape.1]; trivial
      · rw [List.mem_singleton.1 hs]; exact Le.refl _
    · exact fun W h => h V (by simp)
  refine ⟨⟨(g :: rev).reverse, L, cs, V⟩, r, ?_, rfl, rfl, ?_, by rw [h9]; simp, fun i hi => ?_⟩
  · rw [NDI.new, if_neg hns, if_neg ht]
    simp only [List.reverse_reverse, h5, h1, hb, bind, Except.bind, pure, Except.pure, orRuntime]
  · simp [NDI.icdf, h2, h6, h8, bind, Except.bind]
  · have := h10 i hi
    have hc : coords (unsqueezeLast y) i = [linear1d (cprobs (mprob (fun idx => probs.get (idx.reverse ++ proj V i))
        ((rev.map pts).reverse.map List.length) (pts g).length [])) (pts g) (u.get (proj T i))] := by
      have e1 : (rev.map pts).reverse.map List.length = rev.reverse.map npoints := by
        simp [pts, row_length, Function.comp_def]
      have e2 : (pts g).length = npoints g := by simp [pts, row_length]
      have e3 : row (marginalT probs (rev.reverse.map len) (len g) []) (npoints g) (proj V i) =
          cprobs (mprob (fun idx => probs.get (idx.reverse ++ proj V i)) (rev.reverse.map npoints) (npoints g) []) := by
        refine List.ext_getElem ?_ fun j hj1 hj2 => ?_
        · have := hgg.shape.2
          simp [row_length, cprobs, cumsum_length, mprob]; omega
        · rw [← at'_eq _ _ hj1, ← at'_eq _ _ hj2, at_row _ _ _ _ (by simpa [row_length] using hj1)]
          have := marginalT_get probs (rev.reverse.map len) (len g) [] [] rfl j (proj V i)
          simp only [List.reverse_nil, List.nil_append] at this
          rw [this, map_len (gs := rev.reverse) (by simpa using hrev), hgg.len]
      rw [e1, e2, ← e3]
      simp [coords, unsqueezeLast, h4 i hi, pts]
    rw [hc] at this
    simp only [Interp.icdf, List.map_reverse, List.map_cons, List.reverse_reverse] at this ⊢
    simp only [List.map_nil] at this
    rw [this]

/-- **C137** `rsample(sample_shape)` has the shape `sample_shape + batch_shape + (d,)`; if the grids increase and the tables of
probabilities are non-negative (and every conditional distribution has positive mass), then for uniform numbers in `[0, 1)` every
sample lies in the box of the grids and in every dimension the distribution function *of its own batch element* takes the value of
its own uniform number. -/
theorem C137_rsample {grids : List (Tens ℝ)} (hg : ∀ g ∈ grids, Plain g ∧ (pts g).Pairwise (· < ·)) (hd : 2 ≤ grids.length)
    (hp : probs.shape = (grids.map npoints).reverse ++ V)
    (hpr : ∀ v, Valid V v → Probs (grids.map npoints) fun idx => probs.get (idx.reverse ++ v))
    (sample : Shape) (rand : List ℕ → ℝ) (hr : ∀ i, 0 ≤ rand i ∧ rand i < 1) :
    ∃ D r, NDI.new grids probs = .ok D ∧ D.batch = V ∧ D.rsample sample rand = .ok r ∧ r.shape = grids.length :: (V ++ sample) ∧
      ∀ v s, Valid V v → Valid sample s → InBox (grids.map pts) (coords r (v ++ s)) ∧
        Inverts (fun idx => probs.get (idx.reverse ++ v)) [] (grids.map pts) (coords r (v ++ s))
          ((List.range grids.length).map fun k => rand (v ++ s ++ [k])).reverse := by
  have hle : Le V (V ++ sample) := by
    clear hp hpr
    induction V with
    | nil => trivial
    | cons a V ih => exact ⟨.inr rfl, ih⟩
  obtain ⟨D, r, h1, h2, h3, h4, h5, h6⟩ := C137_icdf (probs := probs) (V := V) (T := V ++ sample) (Z := V ++ sample)
    (us := (List.range grids.length).map fun k => ⟨V ++ sample, fun i => rand (i ++ [k])⟩) (fun g h => (hg g h).1) hd hp (by simp)
    (by simp) (bc_absorb hle)
  refine ⟨D, r, h1, h3, by rw [NDI.rsample, h2, h3, h4], h5, fun v s hv hs => ?_⟩
  have hvs : Valid (V ++ sample) (v ++ s) := List.rel_append hv hs
  have h7 := h6 _ hvs
  have e1 : proj V (v ++ s) = v := by
    have := proj_append (s := V) (t := []) (i := v) (j := s) hv.length_eq.symm
    rw [List.append_nil] at this
    rw [this, proj_valid hv]; simp [proj]
  rw [e1, proj_valid hvs, List.map_map] at h7
  have e2 : (grids.map pts).map List.length = grids.map npoints := by simp [pts, row_length, Function.comp_def]
  obtain ⟨x, h8, h9, h10⟩ := C63_icdf (grids.map pts) (by
      intro l hl
      obtain ⟨g, hgm, rfl⟩ := List.mem_map.1 hl
      exact ⟨by rw [pts, row_length]; exact (hg g hgm).1.shape.2, (hg g hgm).2⟩) (by simpa using hd)
    (fun idx => probs.get (idx.reverse ++ v)) (by rw [e2]; exact hpr v hv)
    ((List.range grids.length).map ((fun u : Tens ℝ => u.get (v ++ s)) ∘ fun k => (⟨V ++ sample, fun i => rand (i ++ [k])⟩ : Tens ℝ))) (by simp)
    (by
      intro u hu
      obtain ⟨k, -, rfl⟩ := List.mem_map.1 hu
      exact hr _)
  rw [h7] at h8
  obtain rfl := Except.ok.inj h8
  exact ⟨h9, h10⟩

/-- **C137** grids with batch dimensions are not supported, though the constructor broadcasts their batch shapes: their *first*
dimension (the last of the list `shape`) is taken for the number of points, and if it is not the last one, `AssertionError` is raised. -/
theorem C137_batched_grids {grids : List (Tens ℝ)} (hg : ∀ g ∈ grids, g.shape ≠ [])
    (hp : probs.shape.take grids.length = (grids.map fun g => g.shape.headD 0).reverse)
    (h : ∃ g ∈ grids, g.shape.getLast? ≠ g.shape.head?) :
    NDI.new grids probs = .error .assertion := by
  have h1 : ¬ ∃ g ∈ grids, g.shape = [] := by
    rintro ⟨g, h, h'⟩; exact hg g h h'
  have h2 : probs.shape.take grids.length ≠ (grids.map len).reverse := by
    rw [hp]
    intro he
    obtain ⟨g, hm, hn⟩ := h
    have h3 := (List.map_inj_left.1 (List.reverse_injective he)) g hm
    obtain ⟨a, l, hl⟩ := List.exists_cons_of_ne_nil (hg g hm)
    simp only [len, hl, List.headD_cons, List.getLast?_cons, Option.getD_some] at h3
    apply hn
    rw [hl, List.getLast?_cons, List.head?_cons, ← h3]
  rw [NDI.new, if_neg h1, if_pos h2]

/-- A grid of shape `(2, 3)` and a 1-d grid of 4 points, `probs` of shape `(2, 3, 4)`. -/
example := C137_batched_grids (probs := ⟨[4, 3, 2], fun _ => 1⟩) (grids := [⟨[3, 2], fun _ => 0⟩, ⟨[4], fun _ => 0⟩]) (by simp) rfl
  ⟨_, List.mem_cons_self, by simp⟩

/-- **C137** in one dimension every distribution can be constructed and none can be sampled: `ValueError`. -/
theorem C137_one_dim {g : Tens ℝ} (hg : Plain g) (hp : probs.shape = npoints g :: V) (sample : Shape) (rand : List ℕ → ℝ) :
    ∃ D, NDI.new [g] probs = .ok D ∧ D.rsample sample rand = .error .value := by
  have hm : (marginalT probs [] (len g) []).shape = npoints g :: V := by simp [marginalT, hg.len, hp]
  have hle : Le V (V ++ sample) := by
    clear hp hm
    induction V with
    | nil => trivial
    | cons a V ih => exact ⟨.inr rfl, ih⟩
  obtain ⟨L, y, h1, h2, -, -⟩ := linNew_call (u := ⟨V ++ sample, fun i => rand (i ++ [0])⟩) hm hg.shape.1 hg.shape.2 rfl (bc_absorb hle)
  refine ⟨⟨[g], L, [], V⟩, ?_, ?_⟩
  · rw [hg.len] at h1
    simp [NDI.new, hg.shape.1, hp, hg.len, h1, cinterpsT, bcAll, bc, orRuntime, bind, Except.bind, pure, Except.pure]
    cases V <;> simp [bc]
  · simp [NDI.rsample, NDI.icdf, h2, itemsT, bind, Except.bind]

/-- Three distributions on a grid of 2 × 4 points, five samples of each: shape `(5, 3, 2)`. -/
example (g1 g2 p : Tens ℝ) (h1 : g1.shape = [2]) (h2 : g2.shape = [4]) (hp : p.shape = [4, 2, 3]) (hs1 : (pts g1).Pairwise (· < ·))
    (hs2 : (pts g2).Pairwise (· < ·)) (hpos : ∀ v < 3, Probs [2, 4] fun idx => p.get (idx.reverse ++ [v])) (rand : List ℕ → ℝ)
    (hr : ∀ i, 0 ≤ rand i ∧ rand i < 1) :
    ∃ D r, NDI.new [g1, g2] p = .ok D ∧ D.rsample [5] rand = .ok r ∧ r.shape = [2, 3, 5] := by
  obtain ⟨D, r, a, -, b, c, -⟩ := C137_rsample (probs := p) (V := [3]) (grids := [g1, g2])
    (by simp only [List.mem_cons, List.not_mem_nil, or_false, forall_eq_or_imp, forall_eq]
        exact ⟨⟨⟨2, h1, by omega⟩, hs1⟩, ⟨4, h2, by omega⟩, hs2⟩) (by simp) (by simp [npoints, h1, h2, hp])
    (by
      intro v hv
      rcases v with _ | ⟨a, _ | ⟨b, v⟩⟩
      · cases hv
      · have : a < 3 := by cases hv; assumption
        simpa [npoints, h1, h2] using hpos a this
      · rcases hv with _ | ⟨_, hv⟩; cases hv) [5] rand hr
  exact ⟨D, r, a, b, c⟩

/-- Such probabilities exist. -/
example : Probs [2, 4] fun idx => (⟨[4, 2, 3], fun _ => 1⟩ : Tens ℝ).get (idx.reverse ++ [1]) := by
  refine ⟨fun _ _ => by norm_num, ?_⟩
  intro pre n post h idx hi
  match pre with
  | [] =>
    simp only [List.nil_append, List.cons.injEq] at h
    obtain ⟨rfl, -⟩ := h
    norm_num [trapezoid, marginal, indices, Finset.sum_range_succ]
  | [a] =>
    simp only [List.cons_append, List.nil_append, List.cons.injEq] at h
    obtain ⟨rfl, rfl, -⟩ := h
    norm_num [trapezoid, marginal, indices, List.range_succ, Finset.sum_range_succ]
  | a :: b :: pre =>
    have := congrArg List.length h
    simp at this

end Verif.Interp.Batch
