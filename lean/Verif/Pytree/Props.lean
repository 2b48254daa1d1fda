import Verif.Pytree.Lemmas

/-! # Properties C12-C16 of nested-container flattening

Users meet these through every quantity operation with nested arguments or outputs. -/

namespace Verif.Pytree

variable {L K C : Type} [DecidableEq K]

/-- **C12 (a).** Flattening any nested list/tuple/dict/tuple-subclass value succeeds, yields its leaves
left to right, and unflattening what was returned gives back the very same value. -/
theorem C12_flatten_unflatten (env : ClassEnv C) (v : Val L K C) (h : v.NoNamed) (hw : v.Wf)
    (hs : v.SeqOnly env) :
    ∃ s, flatten v = .ok (v.leaves.map .leaf, s) ∧ unflatten env (v.leaves.map .leaf) s = .ok v := by
  refine ⟨_, flatten_eq v h, ?_⟩
  rw [unflatten_shape env .leaf v h hw hs, bind_leaf]

/-- **C12 (b).** Unflattening any list of leaves with a spec of matching size succeeds, and flattening
the result returns those leaves and that spec. -/
theorem C12_unflatten_flatten (env : ClassEnv C) (s : Spec K C) (hs : s.Wf env) (ls : List L)
    (hl : ls.length = s.numLeaves) :
    ∃ v, unflatten env (ls.map .leaf) s = .ok v ∧ flatten v = .ok (ls.map .leaf, s) := by
  obtain ⟨v, h1, h2, h3, h4, h5⟩ := spec_realise env s hs ls hl
  refine ⟨v, ?_, ?_⟩
  · have := unflatten_shape env .leaf v h1 h2 h3
    rwa [h4, h5, bind_leaf] at this
  · rw [flatten_eq v h1, h4, h5]

/-- **C12 (c).** Flattening is injective: values with the same leaves and spec are equal. -/
theorem C12_flatten_injective (env : ClassEnv C) (v w : Val L K C) (hv : v.NoNamed) (hvw : v.Wf)
    (hvs : v.SeqOnly env) (hw : w.NoNamed) (hww : w.Wf) (hws : w.SeqOnly env)
    (h : flatten v = flatten w) : v = w := by
  obtain ⟨s, e1, e2⟩ := C12_flatten_unflatten env v hv hvw hvs
  obtain ⟨t, e3, e4⟩ := C12_flatten_unflatten env w hw hww hws
  rw [e1, e3] at h
  injection h with h
  injection h with h1 h2
  rw [h1, h2, e4] at e2
  injection e2 with e2
  exact e2.symm

/-- **C13.** `tree_unflatten` raises `ValueError` exactly when the number of values is not the spec's leaf
count — for any spec and any values, however nested (so never from an inner node). -/
theorem C13_valueError_iff (env : ClassEnv C) (vs : List (Val L K C)) (s : Spec K C) :
    unflatten env vs s = .error .valueError ↔ vs.length ≠ s.numLeaves :=
  unflatten_valueError env s vs

/-- **C13.** The leaf count of the spec returned by flattening is the number of leaves. -/
theorem C13_numLeaves (v : Val L K C) (ls : List (Val L K C)) (s : Spec K C)
    (h : flatten v = .ok (ls, s)) : s.numLeaves = ls.length ∧ ls.length = v.leaves.length := by
  by_cases hn : v.NoNamed
  · rw [flatten_eq v hn] at h
    injection h with h
    injection h with h1 h2
    rw [← h1, ← h2, numLeaves_shape v hn]
    simp
  · rw [flatten_named v hn] at h
    simp at h

/-- **C14 (a).** `tree_map(f, v)` replaces every leaf `x` by `f(x)`, for any `f` (even one returning
containers), and touches nothing else. -/
theorem C14_treeMap (env : ClassEnv C) (f : Val L K C → Val L K C) (v : Val L K C) (h : v.NoNamed)
    (hw : v.Wf) (hs : v.SeqOnly env) : treeMap env f v = .ok (v.bind (fun x => f (.leaf x))) := by
  unfold treeMap
  rw [flatten_eq v h]
  simp only [bind, Except.bind, List.map_map]
  exact unflatten_shape env (f ∘ .leaf) v h hw hs

/-- **C14 (b).** A leaf-to-leaf map keeps the spec, and maps the leaves in order. -/
theorem C14_treeMap_spec (env : ClassEnv C) (f : L → L) (F : Val L K C → Val L K C)
    (hF : ∀ x, F (.leaf x) = .leaf (f x)) (v : Val L K C) (h : v.NoNamed) (hw : v.Wf)
    (hs : v.SeqOnly env) :
    ∃ w s, treeMap env F v = .ok w ∧ flatten v = .ok (v.leaves.map .leaf, s) ∧
      flatten w = .ok ((v.leaves.map f).map .leaf, s) := by
  refine ⟨v.mapLeaves f, v.shape, ?_, flatten_eq v h, ?_⟩
  · rw [C14_treeMap env F v h hw hs]; simp only [hF]; rfl
  · rw [flatten_eq _ (noNamed_mapLeaves f v h), leaves_mapLeaves, shape_mapLeaves]

/-- **C14 (c).** Mapping the identity changes nothing. -/
theorem C14_treeMap_id (env : ClassEnv C) (v : Val L K C) (h : v.NoNamed) (hw : v.Wf)
    (hs : v.SeqOnly env) : treeMap env id v = .ok v := by
  rw [C14_treeMap env id v h hw hs]
  exact congrArg _ (bind_leaf v)

/-- **C14 (d).** Mapping twice (first leaf to leaf) is mapping the composition. -/
theorem C14_treeMap_comp (env : ClassEnv C) (f : L → L) (F G : Val L K C → Val L K C)
    (hF : ∀ x, F (.leaf x) = .leaf (f x)) (v : Val L K C) (h : v.NoNamed) (hw : v.Wf)
    (hs : v.SeqOnly env) :
    ∃ w, treeMap env F v = .ok w ∧ treeMap env G w = treeMap env (fun x => G (F x)) v := by
  refine ⟨v.mapLeaves f, ?_, ?_⟩
  · rw [C14_treeMap env F v h hw hs]; simp only [hF]; rfl
  · rw [C14_treeMap env G _ (noNamed_mapLeaves f v h) (wf_mapLeaves f v hw) (seqOnly_mapLeaves env f v hs),
      C14_treeMap env _ v h hw hs]
    unfold Val.mapLeaves
    rw [bind_bind]
    simp only [hF, Val.bind]

variable [DecidableEq C]

/-- **C15 (a).** The broadcast helper returns the list `ls` iff the structure of the value is a prefix of
the target's and `ls` repeats each leaf once per target leaf below it. -/
theorem C15_broadcast_iff (env : ClassEnv C) (v : Val L K C) (s : Spec K C) (ls : List (Val L K C)) :
    bcast env v s = .ok (some ls) ↔ Expands env v s ls :=
  ⟨bcast_sound env v s ls, bcast_complete env⟩

/-- **C15 (b).** It never returns a wrong number of leaves. -/
theorem C15_broadcast_length (env : ClassEnv C) (v : Val L K C) (s : Spec K C) (ls : List (Val L K C))
    (h : bcast env v s = .ok (some ls)) : ls.length = s.numLeaves :=
  expands_length (bcast_sound env v s ls h)

/-- **C15 (c).** It signals failure with `None`, not an exception, when no namedtuple is involved. -/
theorem C15_broadcast_none (env : ClassEnv C) (v : Val L K C) (s : Spec K C) (h : v.NoNamed) :
    bcast env v s = .ok none ↔ ¬ ∃ ls, Expands env v s ls := by
  constructor
  · rintro hn ⟨ls, hl⟩
    rw [bcast_complete env hl] at hn
    simp at hn
  · intro hn
    obtain ⟨o, ho⟩ := bcast_noNamed env v s h
    cases o with
    | none => exact ho
    | some ls => exact (hn ⟨ls, bcast_sound env v s ls ho⟩).elim

/-- **C15 (d).** Broadcasting a value to its own spec returns its own leaves; broadcasting a single leaf
to any spec repeats it. -/
theorem C15_broadcast_self (env : ClassEnv C) (v : Val L K C) (ls : List (Val L K C)) (s : Spec K C)
    (h : flatten v = .ok (ls, s)) : bcast env v s = .ok (some ls) := by
  by_cases hn : v.NoNamed
  · rw [flatten_eq v hn] at h
    injection h with h
    injection h with h1 h2
    subst h1 h2
    exact bcast_complete env (expands_self env v hn)
  · rw [flatten_named v hn] at h
    simp at h

omit [DecidableEq K] [DecidableEq C] in
/-- **C16, negation.** The claim "a genuine namedtuple survives the round trip" is false of the code: a
value with a namedtuple anywhere inside cannot even be flattened, it raises `TypeError`; and these are the
only values that cannot. -/
theorem C16_namedtuple_typeError (v : Val L K C) :
    (¬ v.NoNamed ↔ flatten v = .error .typeError) ∧ (v.NoNamed ↔ ∃ r, flatten v = .ok r) := by
  by_cases h : v.NoNamed
  · simp [h, flatten_eq v h]
  · simp [h, flatten_named v h]

omit [DecidableEq C] in
/-- **C16, second negation.** An instance of a *subclass* of a namedtuple flattens, but cannot be
rebuilt: with two or more fields unflattening raises `TypeError`, and with one field it silently returns
a different value, whose field is a one-element list. -/
theorem C16_namedtuple_subclass (env : ClassEnv C) (c : C) (n : Nat) (hc : env.kind c = .fields n)
    (xs : List L) (hx : xs.length = n) :
    ∃ s, flatten (.tsub c (xs.map .leaf) : Val L K C) = .ok (xs.map .leaf, s) ∧
      (n ≠ 1 → unflatten env (xs.map .leaf : List (Val L K C)) s = .error .typeError) ∧
      (n = 1 → unflatten env (xs.map .leaf : List (Val L K C)) s = .ok (.tsub c [.list (xs.map .leaf)])) := by
  have hN : Val.NoNamedL (xs.map .leaf : List (Val L K C)) := by
    induction xs generalizing n with
    | nil => trivial
    | cons a t ih =>
      clear hc hx
      induction (a :: t) with
      | nil => trivial
      | cons b t ih => exact ⟨trivial, ih⟩
  have hW : Val.WfL (xs.map .leaf : List (Val L K C)) ∧ Val.SeqOnlyL env (xs.map .leaf : List (Val L K C)) := by
    clear hc hx hN
    induction xs with
    | nil => exact ⟨trivial, trivial⟩
    | cons b t ih => exact ⟨⟨trivial, ih.1⟩, ⟨trivial, ih.2⟩⟩
  have hL : Val.leavesL (xs.map .leaf : List (Val L K C)) = xs := by
    clear hc hx hN hW
    induction xs with
    | nil => rfl
    | cons b t ih => simp [Val.leavesL, Val.leaves, ih]
  have e := unflattenL_shape env .leaf (xs.map .leaf : List (Val L K C)) hN hW.1 hW.2
  rw [hL, bindL_leaf] at e
  have nl := numLeaves_shapeL (xs.map .leaf : List (Val L K C)) hN
  rw [hL] at nl
  refine ⟨_, flatten_eq (Val.tsub c (xs.map Val.leaf)) hN |>.trans (by simp only [Val.leaves, hL]; rfl), ?_, ?_⟩
  · intro h
    simp [Val.shape, unflatten, Spec.numLeaves, nl, e, bind, Except.bind, rebuild, hc, h]
  · intro h
    simp [Val.shape, unflatten, Spec.numLeaves, nl, e, bind, Except.bind, rebuild, hc, h]

/-! ### Non-vacuity -/

/-- `{'a': [1, (2, 3)], 'b': 4}` with the keys numbered. -/
def sample : Val Nat Nat Nat := .dict [0, 1] [.list [.leaf 1, .tuple [.leaf 2, .leaf 3]], .leaf 4]

/-- Classes: 0 is a `torch.return_types`-like class. -/
def sampleEnv : ClassEnv Nat := ⟨fun c => if c = 0 then .seq else .fields c, fun _ _ => false⟩

example : sample.NoNamed ∧ sample.Wf ∧ sample.SeqOnly sampleEnv := by
  simp [sample, Val.NoNamed, Val.NoNamedL, Val.Wf, Val.WfL, Val.SeqOnly, Val.SeqOnlyL]

example : flatten sample = .ok ([.leaf 1, .leaf 2, .leaf 3, .leaf 4],
    .node .dict (some [0, 1]) [.node .list none [.leaf, .node .tuple none [.leaf, .leaf]], .leaf]) := rfl

example : bcast sampleEnv (.dict [0, 1] [.leaf 7, .leaf 8]) sample.shape =
    .ok (some [.leaf 7, .leaf 7, .leaf 7, .leaf 8]) := rfl

example : (sample.shape).Wf sampleEnv := by
  simp [sample, Val.shape, Val.shapeL, Spec.Wf, Spec.WfL]

example : ¬ (Val.list [.nt 0 [.leaf 1]] : Val Nat Nat Nat).NoNamed := by simp [Val.NoNamed, Val.NoNamedL]

example : sampleEnv.kind 2 = .fields 2 := rfl

theorem sample_ok : sample.NoNamed ∧ sample.Wf ∧ sample.SeqOnly sampleEnv := by
  simp [sample, Val.NoNamed, Val.NoNamedL, Val.Wf, Val.WfL, Val.SeqOnly, Val.SeqOnlyL]

/-- C12 to C15 on that tree: `C12_flatten_unflatten`, `C12_unflatten_flatten`, `C12_flatten_injective`, `C13_numLeaves`,
`C14_treeMap`, `C14_treeMap_spec`, `C14_treeMap_id`, `C14_treeMap_comp`, `C15_broadcast_length`, `C15_broadcast_none`,
`C15_broadcast_self`. -/
example := C12_flatten_unflatten sampleEnv sample sample_ok.1 sample_ok.2.1 sample_ok.2.2
example := C12_unflatten_flatten sampleEnv sample.shape (by simp [sample, Val.shape, Val.shapeL, Spec.Wf, Spec.WfL]) [5, 6, 7, 8] rfl
example := C12_flatten_injective sampleEnv sample sample sample_ok.1 sample_ok.2.1 sample_ok.2.2 sample_ok.1 sample_ok.2.1
  sample_ok.2.2 rfl
example := C13_numLeaves sample _ _ (rfl : flatten sample = .ok ([.leaf 1, .leaf 2, .leaf 3, .leaf 4], sample.shape))
example := C14_treeMap sampleEnv (fun _ => .list [.leaf 0]) sample sample_ok.1 sample_ok.2.1 sample_ok.2.2
example := C14_treeMap_spec sampleEnv (· + 1) (fun | .leaf x => .leaf (x + 1) | v => v) (fun _ => rfl) sample sample_ok.1
  sample_ok.2.1 sample_ok.2.2
example := C14_treeMap_id sampleEnv sample sample_ok.1 sample_ok.2.1 sample_ok.2.2
example := C14_treeMap_comp sampleEnv (· + 1) (fun | .leaf x => .leaf (x + 1) | v => v) (fun v => .tuple [v]) (fun _ => rfl) sample
  sample_ok.1 sample_ok.2.1 sample_ok.2.2
example := C15_broadcast_length sampleEnv (.dict [0, 1] [.leaf 7, .leaf 8]) sample.shape [.leaf 7, .leaf 7, .leaf 7, .leaf 8] rfl
example := C15_broadcast_none sampleEnv (.list [.leaf 7, .leaf 8]) sample.shape (by simp [Val.NoNamed, Val.NoNamedL])
example := C15_broadcast_self sampleEnv sample [.leaf 1, .leaf 2, .leaf 3, .leaf 4] sample.shape rfl

end Verif.Pytree
