import Verif.Pytree.Spec

/-! # Helper lemmas for the pytree model -/

namespace Verif.Pytree

variable {L K C : Type}

mutual
theorem flatten_eq (v : Val L K C) (h : v.NoNamed) : flatten v = .ok (v.leaves.map .leaf, v.shape) := by
  cases v with
  | leaf x => rfl
  | dict ks vs => simp [flatten, flattenL_eq vs h, Val.leaves, Val.shape, bind, Except.bind, pure, Except.pure]
  | list vs => simp [flatten, flattenL_eq vs h, Val.leaves, Val.shape, bind, Except.bind, pure, Except.pure]
  | tuple vs => simp [flatten, flattenL_eq vs h, Val.leaves, Val.shape, bind, Except.bind, pure, Except.pure]
  | tsub c vs =>
    simp [flatten, flattenL_eq vs h, Val.leaves, Val.shape, bind, Except.bind, pure, Except.pure]
  | nt c vs => exact h.elim
theorem flattenL_eq (vs : List (Val L K C)) (h : Val.NoNamedL vs) :
    flattenL vs = .ok ((Val.leavesL vs).map .leaf, Val.shapeL vs) := by
  cases vs with
  | nil => rfl
  | cons x xs =>
    simp [flattenL, flatten_eq x h.1, flattenL_eq xs h.2, Val.leavesL, Val.shapeL, bind, Except.bind, pure,
      Except.pure]
end

mutual
theorem flatten_named (v : Val L K C) (h : ¬ v.NoNamed) : flatten v = .error .typeError := by
  cases v with
  | leaf x => exact (h trivial).elim
  | dict ks vs => simp [flatten, flattenL_named vs h, bind, Except.bind]
  | list vs => simp [flatten, flattenL_named vs h, bind, Except.bind]
  | tuple vs => simp [flatten, flattenL_named vs h, bind, Except.bind]
  | tsub c vs => simp [flatten, flattenL_named vs h, bind, Except.bind]
  | nt c vs => rfl
theorem flattenL_named (vs : List (Val L K C)) (h : ¬ Val.NoNamedL vs) :
    flattenL vs = .error .typeError := by
  cases vs with
  | nil => exact (h trivial).elim
  | cons x xs =>
    by_cases h1 : x.NoNamed
    · have h2 : ¬ Val.NoNamedL xs := fun h2 => h ⟨h1, h2⟩
      simp [flattenL, flatten_eq x h1, flattenL_named xs h2, bind, Except.bind]
    · simp [flattenL, flatten_named x h1, bind, Except.bind]
end

mutual
theorem numLeaves_shape (v : Val L K C) (h : v.NoNamed) : v.shape.numLeaves = v.leaves.length := by
  cases v with
  | leaf x => rfl
  | dict ks vs => exact numLeaves_shapeL vs h
  | list vs => exact numLeaves_shapeL vs h
  | tuple vs => exact numLeaves_shapeL vs h
  | tsub c vs => exact numLeaves_shapeL vs h
  | nt c vs => exact h.elim
theorem numLeaves_shapeL (vs : List (Val L K C)) (h : Val.NoNamedL vs) :
    Spec.numLeavesL (Val.shapeL vs) = (Val.leavesL vs).length := by
  cases vs with
  | nil => rfl
  | cons x xs =>
    simp [Val.shapeL, Spec.numLeavesL, Val.leavesL, numLeaves_shape x h.1, numLeaves_shapeL xs h.2]
end

theorem length_bindL {L' : Type} (g : L → Val L' K C) (vs : List (Val L K C)) :
    (Val.bindL g vs).length = vs.length := by
  induction vs with
  | nil => rfl
  | cons x xs ih => simp [Val.bindL, ih]

theorem set_fresh {V : Type} [DecidableEq K] (d : PyDict K V) (k : K) (v : V) (h : k ∉ d.map Prod.fst) :
    d.set k v = d ++ [(k, v)] := by
  induction d with
  | nil => rfl
  | cons x d ih =>
    obtain ⟨a, b⟩ := x
    simp only [List.map_cons, List.mem_cons, not_or] at h
    simp [PyDict.set, Ne.symm h.1, ih h.2]

theorem update_fresh {V : Type} [DecidableEq K] (e d : PyDict K V)
    (h : (d.map Prod.fst ++ e.map Prod.fst).Nodup) : PyDict.update d e = d ++ e := by
  induction e generalizing d with
  | nil => simp [PyDict.update]
  | cons x e ih =>
    obtain ⟨k, v⟩ := x
    have hk : k ∉ d.map Prod.fst := by
      intro hk
      rw [List.nodup_append] at h
      exact h.2.2 k hk k (by simp) rfl
    have := ih (d ++ [(k, v)]) (by simpa using h)
    unfold PyDict.update at this ⊢
    simp only [List.foldl_cons]
    rw [set_fresh d k v hk, this]
    simp

theorem dictUnflatten_eq [DecidableEq K] (ks : List K) (vs : List (Val L K C)) (hl : ks.length = vs.length)
    (hn : ks.Nodup) : dictUnflatten ks vs = .dict ks vs := by
  unfold dictUnflatten
  have h : PyDict.update [] (ks.zip vs) = ks.zip vs := by
    rw [update_fresh]
    · rfl
    · simpa [List.map_fst_zip (Nat.le_of_eq hl)] using hn
  simp [h, List.map_fst_zip (Nat.le_of_eq hl), List.map_snd_zip (Nat.le_of_eq hl.symm)]

mutual
theorem unflatten_shape [DecidableEq K] {L' : Type} (env : ClassEnv C) (g : L → Val L' K C) (v : Val L K C)
    (h : v.NoNamed) (hw : v.Wf) (hs : v.SeqOnly env) :
    unflatten env (v.leaves.map g) v.shape = .ok (v.bind g) := by
  cases v with
  | leaf x => simp [Val.leaves, Val.shape, unflatten, Val.bind]
  | dict ks vs =>
    have := unflattenL_shape env g vs h hw.2.2 hs
    simp [Val.shape, unflatten, Val.leaves, Spec.numLeaves, numLeaves_shapeL vs h, this, bind, Except.bind,
      rebuild, Val.bind, dictUnflatten_eq ks (Val.bindL g vs) (by rw [length_bindL]; exact hw.1) hw.2.1]
  | list vs =>
    have := unflattenL_shape env g vs h hw hs
    simp [Val.shape, unflatten, Val.leaves, Spec.numLeaves, numLeaves_shapeL vs h, this, bind, Except.bind,
      rebuild, Val.bind]
  | tuple vs =>
    have := unflattenL_shape env g vs h hw hs
    simp [Val.shape, unflatten, Val.leaves, Spec.numLeaves, numLeaves_shapeL vs h, this, bind, Except.bind,
      rebuild, Val.bind]
  | tsub c vs =>
    have := unflattenL_shape env g vs h hw hs.2
    simp [Val.shape, unflatten, Val.leaves, Spec.numLeaves, numLeaves_shapeL vs h, this, bind, Except.bind,
      rebuild, Val.bind, hs.1]
  | nt c vs => exact h.elim
theorem unflattenL_shape [DecidableEq K] {L' : Type} (env : ClassEnv C) (g : L → Val L' K C)
    (vs : List (Val L K C)) (h : Val.NoNamedL vs) (hw : Val.WfL vs) (hs : Val.SeqOnlyL env vs) :
    unflattenL env ((Val.leavesL vs).map g) (Val.shapeL vs) = .ok (Val.bindL g vs) := by
  cases vs with
  | nil => rfl
  | cons x xs =>
    have e : x.shape.numLeaves = (x.leaves.map g).length := by rw [numLeaves_shape x h.1]; simp
    simp only [Val.leavesL, Val.shapeL, unflattenL, List.map_append]
    rw [e, List.take_left, List.drop_left, unflatten_shape env g x h.1 hw.1 hs.1,
      unflattenL_shape env g xs h.2 hw.2 hs.2]
    rfl
end

mutual
theorem bind_leaf (v : Val L K C) : v.bind .leaf = v := by
  cases v with
  | leaf x => rfl
  | dict ks vs => simp [Val.bind, bindL_leaf vs]
  | list vs => simp [Val.bind, bindL_leaf vs]
  | tuple vs => simp [Val.bind, bindL_leaf vs]
  | tsub c vs => simp [Val.bind, bindL_leaf vs]
  | nt c vs => simp [Val.bind, bindL_leaf vs]
theorem bindL_leaf (vs : List (Val L K C)) : Val.bindL .leaf vs = vs := by
  cases vs with
  | nil => rfl
  | cons x xs => simp [Val.bindL, bind_leaf x, bindL_leaf xs]
end

mutual
theorem bind_bind {L' L'' : Type} (g : L → Val L' K C) (f : L' → Val L'' K C) (v : Val L K C) :
    (v.bind g).bind f = v.bind (fun x => (g x).bind f) := by
  cases v with
  | leaf x => rfl
  | dict ks vs => simp [Val.bind, bindL_bindL g f vs]
  | list vs => simp [Val.bind, bindL_bindL g f vs]
  | tuple vs => simp [Val.bind, bindL_bindL g f vs]
  | tsub c vs => simp [Val.bind, bindL_bindL g f vs]
  | nt c vs => simp [Val.bind, bindL_bindL g f vs]
theorem bindL_bindL {L' L'' : Type} (g : L → Val L' K C) (f : L' → Val L'' K C) (vs : List (Val L K C)) :
    Val.bindL f (Val.bindL g vs) = Val.bindL (fun x => (g x).bind f) vs := by
  cases vs with
  | nil => rfl
  | cons x xs => simp [Val.bindL, bind_bind g f x, bindL_bindL g f xs]
end

mutual
theorem leaves_mapLeaves {L' : Type} (f : L → L') (v : Val L K C) :
    (v.mapLeaves f).leaves = v.leaves.map f := by
  cases v with
  | leaf x => rfl
  | dict ks vs => exact leavesL_bindL f vs
  | list vs => exact leavesL_bindL f vs
  | tuple vs => exact leavesL_bindL f vs
  | tsub c vs => exact leavesL_bindL f vs
  | nt c vs => exact leavesL_bindL f vs
theorem leavesL_bindL {L' : Type} (f : L → L') (vs : List (Val L K C)) :
    Val.leavesL (Val.bindL (fun x => .leaf (f x)) vs) = (Val.leavesL vs).map f := by
  cases vs with
  | nil => rfl
  | cons x xs =>
    have := leaves_mapLeaves f x
    unfold Val.mapLeaves at this
    simp [Val.bindL, Val.leavesL, this, leavesL_bindL f xs]
end

mutual
theorem shape_mapLeaves {L' : Type} (f : L → L') (v : Val L K C) : (v.mapLeaves f).shape = v.shape := by
  cases v with
  | leaf x => rfl
  | dict ks vs => exact congrArg _ (shapeL_bindL f vs)
  | list vs => exact congrArg _ (shapeL_bindL f vs)
  | tuple vs => exact congrArg _ (shapeL_bindL f vs)
  | tsub c vs => exact congrArg _ (shapeL_bindL f vs)
  | nt c vs => rfl
theorem shapeL_bindL {L' : Type} (f : L → L') (vs : List (Val L K C)) :
    Val.shapeL (Val.bindL (fun x => .leaf (f x)) vs) = Val.shapeL vs := by
  cases vs with
  | nil => rfl
  | cons x xs =>
    have := shape_mapLeaves f x
    unfold Val.mapLeaves at this
    simp [Val.bindL, Val.shapeL, this, shapeL_bindL f xs]
end

mutual
theorem noNamed_mapLeaves {L' : Type} (f : L → L') (v : Val L K C) (h : v.NoNamed) :
    (v.mapLeaves f).NoNamed := by
  cases v with
  | leaf x => trivial
  | dict ks vs => exact noNamedL_bindL f vs h
  | list vs => exact noNamedL_bindL f vs h
  | tuple vs => exact noNamedL_bindL f vs h
  | tsub c vs => exact noNamedL_bindL f vs h
  | nt c vs => exact h.elim
theorem noNamedL_bindL {L' : Type} (f : L → L') (vs : List (Val L K C)) (h : Val.NoNamedL vs) :
    Val.NoNamedL (Val.bindL (fun x => .leaf (f x)) vs) := by
  cases vs with
  | nil => trivial
  | cons x xs => exact ⟨noNamed_mapLeaves f x h.1, noNamedL_bindL f xs h.2⟩
end

mutual
theorem wf_mapLeaves {L' : Type} (f : L → L') (v : Val L K C) (h : v.Wf) : (v.mapLeaves f).Wf := by
  cases v with
  | leaf x => trivial
  | dict ks vs => exact ⟨by rw [length_bindL]; exact h.1, h.2.1, wfL_bindL f vs h.2.2⟩
  | list vs => exact wfL_bindL f vs h
  | tuple vs => exact wfL_bindL f vs h
  | tsub c vs => exact wfL_bindL f vs h
  | nt c vs => exact wfL_bindL f vs h
theorem wfL_bindL {L' : Type} (f : L → L') (vs : List (Val L K C)) (h : Val.WfL vs) :
    Val.WfL (Val.bindL (fun x => .leaf (f x)) vs) := by
  cases vs with
  | nil => trivial
  | cons x xs => exact ⟨wf_mapLeaves f x h.1, wfL_bindL f xs h.2⟩
end

mutual
theorem seqOnly_mapLeaves {L' : Type} (env : ClassEnv C) (f : L → L') (v : Val L K C) (h : v.SeqOnly env) :
    (v.mapLeaves f).SeqOnly env := by
  cases v with
  | leaf x => trivial
  | dict ks vs => exact seqOnlyL_bindL env f vs h
  | list vs => exact seqOnlyL_bindL env f vs h
  | tuple vs => exact seqOnlyL_bindL env f vs h
  | tsub c vs => exact ⟨h.1, seqOnlyL_bindL env f vs h.2⟩
  | nt c vs => exact seqOnlyL_bindL env f vs h
theorem seqOnlyL_bindL {L' : Type} (env : ClassEnv C) (f : L → L') (vs : List (Val L K C))
    (h : Val.SeqOnlyL env vs) : Val.SeqOnlyL env (Val.bindL (fun x => .leaf (f x)) vs) := by
  cases vs with
  | nil => trivial
  | cons x xs => exact ⟨seqOnly_mapLeaves env f x h.1, seqOnlyL_bindL env f xs h.2⟩
end

/-! ### Specs to values -/

theorem length_shapeL (vs : List (Val L K C)) : (Val.shapeL vs).length = vs.length := by
  induction vs with
  | nil => rfl
  | cons x xs ih => simp [Val.shapeL, ih]

mutual
theorem spec_realise (env : ClassEnv C) (s : Spec K C) (hs : s.Wf env) (ls : List L)
    (hl : ls.length = s.numLeaves) :
    ∃ v : Val L K C, v.NoNamed ∧ v.Wf ∧ v.SeqOnly env ∧ v.leaves = ls ∧ v.shape = s := by
  match s, hs with
  | .leaf, _ =>
    match ls, hl with
    | [x], _ => exact ⟨.leaf x, trivial, trivial, trivial, rfl, rfl⟩
  | .node .dict ctx cs, hs =>
    obtain ⟨⟨ks, rfl, hk, hn⟩, hs⟩ := hs
    obtain ⟨vs, h1, h2, h3, h4, h5⟩ := spec_realiseL env cs hs ls hl
    refine ⟨.dict ks vs, h1, ⟨?_, hn, h2⟩, h3, h4, by simp [Val.shape, h5]⟩
    rw [hk, ← h5, length_shapeL]
  | .node .list ctx cs, hs =>
    obtain ⟨rfl, hs⟩ := hs
    obtain ⟨vs, h1, h2, h3, h4, h5⟩ := spec_realiseL env cs hs ls hl
    exact ⟨.list vs, h1, h2, h3, h4, by simp [Val.shape, h5]⟩
  | .node .tuple ctx cs, hs =>
    obtain ⟨rfl, hs⟩ := hs
    obtain ⟨vs, h1, h2, h3, h4, h5⟩ := spec_realiseL env cs hs ls hl
    exact ⟨.tuple vs, h1, h2, h3, h4, by simp [Val.shape, h5]⟩
  | .node (.tsub c) ctx cs, hs =>
    obtain ⟨rfl, hc, hs⟩ := hs
    obtain ⟨vs, h1, h2, h3, h4, h5⟩ := spec_realiseL env cs hs ls hl
    exact ⟨.tsub c vs, h1, h2, ⟨hc, h3⟩, h4, by simp [Val.shape, h5]⟩
theorem spec_realiseL (env : ClassEnv C) (cs : List (Spec K C)) (hs : Spec.WfL env cs) (ls : List L)
    (hl : ls.length = Spec.numLeavesL cs) :
    ∃ vs : List (Val L K C), Val.NoNamedL vs ∧ Val.WfL vs ∧ Val.SeqOnlyL env vs ∧ Val.leavesL vs = ls ∧
      Val.shapeL vs = cs := by
  match cs, hs with
  | [], _ =>
    have : ls = [] := List.eq_nil_of_length_eq_zero hl
    exact ⟨[], trivial, trivial, trivial, this.symm, rfl⟩
  | c :: cs, hs =>
    simp only [Spec.numLeavesL] at hl
    obtain ⟨v, a1, a2, a3, a4, a5⟩ := spec_realise env c hs.1 (ls.take c.numLeaves) (by
      rw [List.length_take]; omega)
    obtain ⟨vs, h1, h2, h3, h4, h5⟩ := spec_realiseL env cs hs.2 (ls.drop c.numLeaves) (by
      rw [List.length_drop]; omega)
    exact ⟨v :: vs, ⟨a1, h1⟩, ⟨a2, h2⟩, ⟨a3, h3⟩, by simp [Val.leavesL, a4, h4], by
      simp [Val.shapeL, a5, h5]⟩
end

mutual
theorem shape_wf (env : ClassEnv C) (v : Val L K C) (h : v.NoNamed) (hw : v.Wf) (hs : v.SeqOnly env) :
    v.shape.Wf env := by
  cases v with
  | leaf x => trivial
  | dict ks vs => exact ⟨⟨ks, rfl, by rw [length_shapeL]; exact hw.1, hw.2.1⟩, shapeL_wf env vs h hw.2.2 hs⟩
  | list vs => exact ⟨rfl, shapeL_wf env vs h hw hs⟩
  | tuple vs => exact ⟨rfl, shapeL_wf env vs h hw hs⟩
  | tsub c vs => exact ⟨rfl, hs.1, shapeL_wf env vs h hw hs.2⟩
  | nt c vs => exact h.elim
theorem shapeL_wf (env : ClassEnv C) (vs : List (Val L K C)) (h : Val.NoNamedL vs) (hw : Val.WfL vs)
    (hs : Val.SeqOnlyL env vs) : Spec.WfL env (Val.shapeL vs) := by
  cases vs with
  | nil => trivial
  | cons x xs => exact ⟨shape_wf env x h.1 hw.1 hs.1, shapeL_wf env xs h.2 hw.2 hs.2⟩
end

/-! ### Errors of unflattening -/

theorem rebuild_ne_valueError [DecidableEq K] (env : ClassEnv C) (ty : Ty C) (ctx : Option (List K))
    (vs : List (Val L K C)) : rebuild env ty ctx vs ≠ .error .valueError := by
  cases ty <;> cases ctx <;> simp only [rebuild, ne_eq, reduceCtorEq, not_false_eq_true, Except.error.injEq]
  all_goals (split <;> try split) <;> simp

mutual
theorem unflatten_valueError [DecidableEq K] (env : ClassEnv C) (s : Spec K C) (vs : List (Val L K C)) :
    unflatten env vs s = .error .valueError ↔ vs.length ≠ s.numLeaves := by
  match s with
  | .leaf =>
    match vs with
    | [] => simp [unflatten, Spec.numLeaves]
    | [x] => simp [unflatten, Spec.numLeaves]
    | x :: y :: r => simp [unflatten, Spec.numLeaves]
  | .node ty ctx cs =>
    simp only [unflatten]
    split
    · simp_all
    · rename_i h
      simp only [ne_eq, Decidable.not_not] at h
      simp only [h, ne_eq, not_true_eq_false, iff_false]
      have := unflattenL_valueError env cs vs h
      cases hr : unflattenL env vs cs with
      | error e => rw [hr] at this; simpa [bind, Except.bind] using this
      | ok r => simpa [bind, Except.bind] using rebuild_ne_valueError env ty ctx r
theorem unflattenL_valueError [DecidableEq K] (env : ClassEnv C) (cs : List (Spec K C))
    (vs : List (Val L K C)) (h : vs.length = Spec.numLeavesL cs) :
    unflattenL env vs cs ≠ .error .valueError := by
  match cs with
  | [] => simp [unflattenL]
  | c :: cs =>
    simp only [Spec.numLeavesL] at h
    have h1 : unflatten env (vs.take c.numLeaves) c ≠ .error .valueError := fun h' =>
      (unflatten_valueError env c (vs.take c.numLeaves)).mp h' (by simp; omega)
    have h2 := unflattenL_valueError env cs (vs.drop c.numLeaves) (by simp; omega)
    simp only [unflattenL]
    cases hx : unflatten env (vs.take c.numLeaves) c with
    | error e => rw [hx] at h1; simpa [bind, Except.bind] using h1
    | ok x =>
      cases hy : unflattenL env (vs.drop c.numLeaves) cs with
      | error e => rw [hy] at h2; simpa [bind, Except.bind] using h2
      | ok r => simp [bind, Except.bind, pure, Except.pure]
end

/-! ### Broadcasting -/

theorem expandsL_length {env : ClassEnv C} {xs : List (Val L K C)} {cs : List (Spec K C)}
    {ls : List (Val L K C)} (h : ExpandsL env xs cs ls) : xs.length = cs.length := by
  match h with
  | .nil => rfl
  | .cons _ h => simp [expandsL_length h]

theorem compat_dict [DecidableEq C] {env : ClassEnv C} {ty} : compat env .dict ty = true ↔ ty = .dict := by
  cases ty <;> simp [compat]
theorem compat_list [DecidableEq C] {env : ClassEnv C} {ty} : compat env .list ty = true ↔ ty = .list := by
  cases ty <;> simp [compat]

mutual
theorem bcast_sound [DecidableEq K] [DecidableEq C] (env : ClassEnv C) (v : Val L K C) (s : Spec K C) (ls)
    (h : bcast env v s = .ok (some ls)) : Expands env v s ls := by
  match v, s with
  | .leaf x, s =>
    simp only [bcast, Except.ok.injEq, Option.some.injEq] at h
    rw [← h]; exact .leaf x s
  | .nt c xs, s => simp [bcast] at h
  | .dict ks vs, .leaf => simp [bcast] at h
  | .list vs, .leaf => simp [bcast] at h
  | .tuple vs, .leaf => simp [bcast] at h
  | .tsub c vs, .leaf => simp [bcast] at h
  | .dict ks vs, .node ty ctx cs =>
    simp only [bcast] at h
    split at h
    · simp at h
    split at h
    · simp at h
    rename_i h1 h2
    simp only [not_or, ne_eq, Decidable.not_not] at h2
    have hl := bcastL_sound env vs cs ls h2.1 h
    rw [← h2.2]
    cases ty <;> simp [compat] at h1
    exact .node .dict hl
  | .list vs, .node ty ctx cs =>
    simp only [bcast] at h
    split at h
    · simp at h
    split at h
    · simp at h
    rename_i h1 h2
    simp only [not_or, ne_eq, Decidable.not_not] at h2
    have hl := bcastL_sound env vs cs ls h2.1 h
    rw [← h2.2]
    cases ty <;> simp [compat] at h1
    exact .node .list hl
  | .tuple vs, .node ty ctx cs =>
    simp only [bcast] at h
    split at h
    · simp at h
    split at h
    · simp at h
    rename_i h1 h2
    simp only [not_or, ne_eq, Decidable.not_not] at h2
    have hl := bcastL_sound env vs cs ls h2.1 h
    rw [← h2.2]
    cases ty <;> simp [compat] at h1
    · exact .node .tuple hl
    · exact .node .tupleSub hl
  | .tsub c vs, .node ty ctx cs =>
    simp only [bcast] at h
    split at h
    · simp at h
    split at h
    · simp at h
    rename_i h1 h2
    simp only [not_or, ne_eq, Decidable.not_not] at h2
    have hl := bcastL_sound env vs cs ls h2.1 h
    rw [← h2.2]
    cases ty with
    | tsub c' =>
      simp only [compat, Bool.or_eq_false_iff, decide_eq_false_iff_not, not_and, Bool.not_eq_false] at h1
      refine .node (.tsub ?_) hl
      by_cases hc : c = c'
      · exact Or.inl hc
      · exact Or.inr (h1 hc)
    | _ => simp [compat] at h1
theorem bcastL_sound [DecidableEq K] [DecidableEq C] (env : ClassEnv C) (xs : List (Val L K C))
    (cs : List (Spec K C)) (ls) (hlen : xs.length = cs.length)
    (h : bcastL env xs cs = .ok (some ls)) : ExpandsL env xs cs ls := by
  match xs, cs with
  | [], [] =>
    simp only [bcastL, Except.ok.injEq, Option.some.injEq] at h
    rw [← h]; exact .nil
  | [], c :: cs => simp at hlen
  | x :: xs, [] => simp at hlen
  | x :: xs, c :: cs =>
    simp only [bcastL] at h
    cases hx : bcast env x c with
    | error e => simp [hx, bind, Except.bind] at h
    | ok o =>
      cases o with
      | none => simp [hx, bind, Except.bind, pure, Except.pure] at h
      | some f =>
        cases hy : bcastL env xs cs with
        | error e => simp [hx, hy, bind, Except.bind] at h
        | ok o =>
          cases o with
          | none => simp [hx, hy, bind, Except.bind, pure, Except.pure] at h
          | some r =>
            simp only [hx, hy, bind, Except.bind, pure, Except.pure, Except.ok.injEq, Option.some.injEq] at h
            rw [← h]
            exact .cons (bcast_sound env x c f hx) (bcastL_sound env xs cs r (by simpa using hlen) hy)
end

mutual
theorem bcast_complete [DecidableEq K] [DecidableEq C] (env : ClassEnv C) {v : Val L K C} {s : Spec K C} {ls}
    (h : Expands env v s ls) : bcast env v s = .ok (some ls) := by
  match h with
  | .leaf x s => simp [bcast]
  | .node hm hl =>
    have e := bcastL_complete env hl
    have n := expandsL_length hl
    match hm with
    | .dict => simp [bcast, compat, n, e]
    | .list => simp [bcast, compat, n, e]
    | .tuple => simp [bcast, compat, n, e]
    | .tupleSub => simp [bcast, compat, n, e]
    | .tsub hc =>
      rename_i c c'
      have hc' : compat env (.tsub c) (.tsub c') = true := by
        rcases hc with rfl | h <;> simp [compat, *]
      simp [bcast, hc', n, e]
theorem bcastL_complete [DecidableEq K] [DecidableEq C] (env : ClassEnv C) {xs : List (Val L K C)}
    {cs : List (Spec K C)} {ls} (h : ExpandsL env xs cs ls) : bcastL env xs cs = .ok (some ls) := by
  match h with
  | .nil => simp [bcastL]
  | .cons h hl =>
    simp [bcastL, bcast_complete env h, bcastL_complete env hl, bind, Except.bind, pure, Except.pure]
end

mutual
theorem expands_length {env : ClassEnv C} {v : Val L K C} {s : Spec K C} {ls}
    (h : Expands env v s ls) : ls.length = s.numLeaves := by
  match h with
  | .leaf x s => simp
  | .node hm hl => simpa [Spec.numLeaves] using expandsL_lengthL hl
theorem expandsL_lengthL {env : ClassEnv C} {xs : List (Val L K C)}
    {cs : List (Spec K C)} {ls} (h : ExpandsL env xs cs ls) : ls.length = Spec.numLeavesL cs := by
  match h with
  | .nil => rfl
  | .cons h hl => simp [Spec.numLeavesL, expands_length h, expandsL_lengthL hl]
end

mutual
theorem expands_self (env : ClassEnv C) (v : Val L K C) (h : v.NoNamed) :
    Expands env v v.shape (v.leaves.map .leaf) := by
  cases v with
  | leaf x => exact .leaf x .leaf
  | dict ks vs => exact .node .dict (expandsL_self env vs h)
  | list vs => exact .node .list (expandsL_self env vs h)
  | tuple vs => exact .node .tuple (expandsL_self env vs h)
  | tsub c vs => exact .node (.tsub (Or.inl rfl)) (expandsL_self env vs h)
  | nt c vs => exact h.elim
theorem expandsL_self (env : ClassEnv C) (vs : List (Val L K C)) (h : Val.NoNamedL vs) :
    ExpandsL env vs (Val.shapeL vs) ((Val.leavesL vs).map .leaf) := by
  cases vs with
  | nil => exact .nil
  | cons x xs =>
    simp only [Val.leavesL, List.map_append, Val.shapeL]
    exact .cons (expands_self env x h.1) (expandsL_self env xs h.2)
end

mutual
theorem bcast_noNamed [DecidableEq K] [DecidableEq C] (env : ClassEnv C) (v : Val L K C) (s : Spec K C)
    (h : v.NoNamed) : ∃ o, bcast env v s = .ok o := by
  match v, s with
  | .leaf x, s => exact ⟨_, by simp only [bcast]; rfl⟩
  | .nt c xs, s => exact h.elim
  | .dict ks vs, .leaf => exact ⟨_, rfl⟩
  | .list vs, .leaf => exact ⟨_, rfl⟩
  | .tuple vs, .leaf => exact ⟨_, rfl⟩
  | .tsub c vs, .leaf => exact ⟨_, rfl⟩
  | .dict ks vs, .node ty ctx cs =>
    simp only [bcast]; split
    · exact ⟨_, rfl⟩
    split
    · exact ⟨_, rfl⟩
    exact bcastL_noNamed env vs cs h
  | .list vs, .node ty ctx cs =>
    simp only [bcast]; split
    · exact ⟨_, rfl⟩
    split
    · exact ⟨_, rfl⟩
    exact bcastL_noNamed env vs cs h
  | .tuple vs, .node ty ctx cs =>
    simp only [bcast]; split
    · exact ⟨_, rfl⟩
    split
    · exact ⟨_, rfl⟩
    exact bcastL_noNamed env vs cs h
  | .tsub c vs, .node ty ctx cs =>
    simp only [bcast]; split
    · exact ⟨_, rfl⟩
    split
    · exact ⟨_, rfl⟩
    exact bcastL_noNamed env vs cs h
theorem bcastL_noNamed [DecidableEq K] [DecidableEq C] (env : ClassEnv C) (xs : List (Val L K C))
    (cs : List (Spec K C)) (h : Val.NoNamedL xs) : ∃ o, bcastL env xs cs = .ok o := by
  match xs, cs with
  | [], cs => exact ⟨_, by simp only [bcastL]; rfl⟩
  | x :: xs, [] => exact ⟨_, by simp only [bcastL]; rfl⟩
  | x :: xs, c :: cs =>
    obtain ⟨o, ho⟩ := bcast_noNamed env x c h.1
    obtain ⟨o', ho'⟩ := bcastL_noNamed env xs cs h.2
    simp only [bcastL, ho, ho', bind, Except.bind]
    cases o with
    | none => exact ⟨_, rfl⟩
    | some f => cases o' <;> exact ⟨_, rfl⟩
end

end Verif.Pytree
