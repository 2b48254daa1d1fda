import Verif.Ragged.Lemmas

/-! # Properties C49-C50 of ragged shapes and tensors -/

namespace Verif.Ragged

/-- **C49 (a).** Every level has one size per group, for every input. -/
theorem C49_sizes_length (lens : List (List Nat)) :
    (Shape.mk' lens).sizes.map List.length = lens.map List.length ∧ (Shape.mk' lens).ndim = lens.length := by
  rw [sizes_mk']
  exact ⟨sizesRec_lengths lens, rfl⟩

/-- **C49 (b).** For a consistent shape the sizes at every level add up to the total size. -/
theorem C49_sizes_sum (lens : List (List Nat)) (h : Consistent lens) :
    ∀ s ∈ (Shape.mk' lens).sizes, s.sum = (Shape.mk' lens).size := by
  rw [sizes_mk']
  exact sizesRec_sums lens h

/-- **C49 (c).** Built from nested sizes of uniform depth, the shape is consistent, has one level per
nonempty depth, and the size recorded for every node at every level is the number of data entries below
that node. -/
theorem C49_nested_sizes (d : Nat) (q : List Nested) (h : ∀ x ∈ q, Uniform d x) :
    Consistent (Shape.fromNested q).lens ∧
    (∀ k < (Shape.fromNested q).ndim,
      (Shape.fromNested q).lens[k]? = some ((level k q).map Nested.arity) ∧
      (Shape.fromNested q).sizes[k]? = some ((level k q).map Nested.total)) ∧
    (∀ k, (Shape.fromNested q).ndim ≤ k → level k q = []) := by
  refine ⟨consistent_bfs d q h, fun k hk => ⟨?_, ?_⟩, ?_⟩
  · change (bfs q)[k]? = _
    replace hk : k < (bfs q).length := hk
    clear h
    induction k generalizing q with
    | zero =>
      cases q with
      | nil => simp [bfs_nil] at hk
      | cons x xs => rw [bfs_cons]; rfl
    | succ k ih =>
      cases q with
      | nil => simp [bfs_nil] at hk
      | cons x xs =>
        rw [bfs_cons] at hk ⊢
        exact ih _ (by simpa using hk)
  · change (Shape.mk' (bfs q)).sizes[k]? = _
    rw [sizes_mk']
    exact sizesRec_bfs d q h k hk
  · intro k hk
    replace hk : (bfs q).length ≤ k := hk
    clear h
    induction k generalizing q with
    | zero =>
      cases q with
      | nil => rfl
      | cons x xs => rw [bfs_cons] at hk; simp at hk
    | succ k ih =>
      cases q with
      | nil => exact ih [] (by simp [bfs_nil])
      | cons x xs =>
        rw [bfs_cons] at hk
        exact ih _ (by simpa using hk)

/-- **C49 (d).** Its total size is the sum of all the integers; the empty list is the 0-dimensional
(scalar) shape of size 1. -/
theorem C49_nested_total (d : Nat) (q : List Nested) (h : ∀ x ∈ q, Uniform d x) :
    (Shape.fromNested q).size = if q = [] then 1 else Nested.totalL q := by
  cases q with
  | nil => simp [Shape.fromNested, bfs_nil, Shape.mk', rawSizes]
  | cons x xs =>
    obtain ⟨hc, hs, -⟩ := C49_nested_sizes d (x :: xs) h
    have h0 := (hs 0 (by change 0 < (bfs (x :: xs)).length; rw [bfs_cons]; simp)).2
    have hm : ((x :: xs).map Nested.total) ∈ (Shape.fromNested (x :: xs)).sizes :=
      List.mem_of_getElem? h0
    have := C49_sizes_sum _ hc _ hm
    change ((x :: xs).map Nested.total).sum = (Shape.fromNested (x :: xs)).size at this
    rw [← this, ← totalL_eq]
    simp

/-- **C49, limit.** For nested sizes of *mixed* depth the recorded sizes are wrong: `[[2, 3], 4]` gets
size 5 instead of 9, with sizes `[5, 0]` at the top level. -/
theorem C49_mixed_depth_wrong :
    (Shape.fromNested [.node [.int 2, .int 3], .int 4]).size = 5 ∧
    (Shape.fromNested [.node [.int 2, .int 3], .int 4]).sizes = [[5, 0], [2, 3]] ∧
    Nested.totalL [.node [.int 2, .int 3], .int 4] = 9 := by
  refine ⟨?_, ?_, rfl⟩ <;>
  simp [Shape.fromNested, bfs_cons, bfs_nil, Nested.arity, Nested.children, Shape.mk', rawSizes, sizesLoop,
    splitInto]

/-- Broadcasting of a tensor whose shape consists of the first `k` levels of the target, spelled out. -/
theorem broadcastTo_eq {α : Type} (lens : List (List Nat)) (hc : Consistent lens) (k : Nat) (l : List Nat)
    (hk : lens[k]? = some l) (data e : List α)
    (hd : data.length = (Shape.mk' (lens.take k)).size)
    (he : if k = 0 then ∃ x, data = [x] ∧ e = List.replicate l.length x else e = data) :
    (Tensor.mk data (Shape.mk' (lens.take k))).broadcastTo (Shape.mk' lens) =
      some ⟨repeatLevels e (lens.drop k), Shape.mk' lens⟩ := by
  have hkl : k < lens.length := by
    rcases Nat.lt_or_ge k lens.length with h | h
    · exact h
    · rw [List.getElem?_eq_none h] at hk; simp at hk
  have hnd : (Shape.mk' (lens.take k)).ndim = k := by
    change (lens.take k).length = k; simp; omega
  obtain ⟨ls, hdrop⟩ : ∃ ls, lens.drop k = l :: ls :=
    ⟨_, by rw [List.drop_eq_getElem?_toList_append, hk]; rfl⟩
  have hcd := consistent_drop lens k hc
  rw [hdrop] at hcd
  have hsl := sizesRec_lengths (l :: ls)
  cases hs : sizesRec (l :: ls) with
  | nil => rw [hs] at hsl; simp at hsl
  | cons s ss =>
    rw [hs] at hsl
    simp only [List.map_cons, List.cons.injEq] at hsl
    have hsk : (Shape.mk' lens).sizes[k]? = some s := by
      rw [sizes_mk']
      have := sizesRec_drop lens k
      rw [hdrop, hs] at this
      have h2 : ((sizesRec lens).drop k)[0]? = some s := by rw [← this]; rfl
      rw [List.getElem?_drop] at h2
      simpa using h2
    have hsum : s.sum = (Shape.mk' lens).size := C49_sizes_sum lens hc s (List.mem_of_getElem? hsk)
    have hel : e.length = l.length := by
      by_cases h0 : k = 0
      · rw [if_pos h0] at he
        obtain ⟨x, -, he⟩ := he
        rw [he]; simp
      · rw [if_neg h0] at he
        rw [he, hd]
        obtain ⟨j, rfl⟩ : ∃ j, k = j + 1 := ⟨k - 1, by omega⟩
        obtain ⟨a, ha⟩ : ∃ a, lens[j]? = some a := ⟨lens[j], by rw [List.getElem?_eq_getElem]⟩
        rw [size_take lens j a ha]
        exact consistent_get lens j hc a l ha hk
    have hexp : expand data l.length = some e := by
      by_cases h0 : k = 0
      · rw [if_pos h0] at he
        obtain ⟨x, hx, he⟩ := he
        rw [hx, he]
        unfold expand
        split
        · rename_i h1
          rw [← h1]; rfl
        · rfl
      · rw [if_neg h0] at he
        subst he
        simp [expand, hel]
    have hrep := repeatLevels_sizes e l ls hcd hel s ss hs
    have hb : broadcastable (Shape.mk' (lens.take k)) (Shape.mk' lens) = true := by
      unfold broadcastable
      have : min (Shape.mk' (lens.take k)).ndim (Shape.mk' lens).ndim = k := by
        rw [hnd]; change min k lens.length = k; omega
      simp only [this]
      change ((lens.take k).take k == lens.take k) = true
      rw [List.take_take, Nat.min_self]
      simp
    unfold Tensor.broadcastTo
    simp only [hnd, hb]
    rw [if_neg (by change ¬ ¬ k < lens.length; simpa using hkl), if_neg (by simp)]
    have hl' : (Shape.mk' lens).lens[k]? = some l := hk
    have hlen := length_repI e s (by rw [hel, hsl.1])
    simp only [bind, Option.bind, hl', hsk, hexp, repeatInterleave]
    rw [if_pos ⟨by rw [hel, hsl.1], hsum⟩]
    simp only [Tensor.mk']
    rw [if_pos (by rw [hlen, hsum]), hrep, hdrop]

/-- **C50 (a).** Broadcasting a tensor with the first `k ≥ 1` levels of a consistent target shape always
succeeds, the result has exactly the target's size (so the constructor's assertion holds), and repeats
every entry, level by level, once per member of its group. -/
theorem C50_broadcast {α : Type} (lens : List (List Nat)) (hc : Consistent lens) (k : Nat) (h0 : 0 < k)
    (hk : k < lens.length) (data : List α) (t : Tensor α)
    (ht : Tensor.mk' data (Shape.mk' (lens.take k)) = some t) :
    ∃ r, t.broadcastTo (Shape.mk' lens) = some r ∧ r.shape = Shape.mk' lens ∧
      r.data.length = (Shape.mk' lens).size ∧ r.data = repeatLevels data (lens.drop k) := by
  unfold Tensor.mk' at ht
  split at ht <;> simp only [Option.some.injEq, reduceCtorEq] at ht
  rename_i hd
  subst ht
  have e := broadcastTo_eq lens hc k lens[k] (by simp [hk]) data data hd
    (by rw [if_neg (by omega)])
  refine ⟨_, e, rfl, ?_, rfl⟩
  unfold Tensor.broadcastTo at e
  simp only [bind, Option.bind] at e
  repeat' (split at e <;> try simp only [reduceCtorEq] at e)
  unfold Tensor.mk' at e
  split at e <;> simp only [Option.some.injEq, reduceCtorEq, Tensor.mk.injEq] at e
  rename_i hlen
  rw [← e.1]
  exact hlen

/-- **C50 (b).** A scalar (0-level) tensor broadcasts to any consistent shape of at least one level by
repeating its only entry `size` times. -/
theorem C50_broadcast_scalar {α : Type} (lens : List (List Nat)) (hc : Consistent lens)
    (hl : lens ≠ []) (x : α) :
    (Tensor.mk [x] (Shape.mk' [])).broadcastTo (Shape.mk' lens) =
      some ⟨List.replicate (Shape.mk' lens).size x, Shape.mk' lens⟩ := by
  obtain ⟨l, ls, rfl⟩ := List.exists_cons_of_ne_nil hl
  have e := broadcastTo_eq (l :: ls) hc 0 l rfl [x] (List.replicate l.length x) rfl (by simp)
  rw [List.take_zero, List.drop_zero] at e
  rw [e]
  congr 2
  cases hs : sizesRec (l :: ls) with
  | nil =>
    have := sizesRec_lengths (l :: ls)
    rw [hs] at this; simp at this
  | cons s ss =>
    have hsl := sizesRec_lengths (l :: ls)
    rw [hs] at hsl
    simp only [List.map_cons, List.cons.injEq] at hsl
    rw [← repeatLevels_sizes (List.replicate l.length x) l ls hc (by simp) s ss hs, ← hsl.1,
      repI_replicate]
    congr 1
    exact sizesRec_sums (l :: ls) hc s (by rw [hs]; simp)

/-- **C50 (c).** Broadcasting in two steps gives the same tensor as broadcasting at once. -/
theorem C50_broadcast_twice {α : Type} (lens : List (List Nat)) (hc : Consistent lens) (j k : Nat)
    (h0 : 0 < j) (hjk : j < k) (hk : k < lens.length) (data : List α)
    (t : Tensor α) (ht : Tensor.mk' data (Shape.mk' (lens.take j)) = some t) :
    ∃ r r', t.broadcastTo (Shape.mk' (lens.take k)) = some r ∧ r.broadcastTo (Shape.mk' lens) = some r' ∧
      t.broadcastTo (Shape.mk' lens) = some r' := by
  have e : (lens.take k).take j = lens.take j := by rw [List.take_take, Nat.min_eq_left (by omega)]
  obtain ⟨r, h1, h2, h3, h4⟩ := C50_broadcast (lens.take k) (consistent_take lens k hc) j h0 (by simp; omega) data t (by rw [e]; exact ht)
  have hr : Tensor.mk' r.data (Shape.mk' (lens.take k)) = some r := by
    unfold Tensor.mk'
    rw [if_pos h3, ← h2]
  obtain ⟨r', g1, g2, g3, g4⟩ := C50_broadcast lens hc k (by omega) hk r.data r hr
  obtain ⟨r'', f1, f2, f3, f4⟩ := C50_broadcast lens hc j h0 (by omega) data t ht
  refine ⟨r, r', h1, g1, ?_⟩
  rw [f1]
  congr 1
  have hdrop : lens.drop j = (lens.take k).drop j ++ lens.drop k := by
    conv => lhs; rw [← List.take_append_drop k lens]
    rw [List.drop_append_of_le_length (by simp; omega)]
  have : r''.data = r'.data := by
    rw [f4, g4, h4, hdrop]
    simp [repeatLevels]
  cases r''; cases r'
  simp_all

/-- **C50 (d).** A tensor never broadcasts to a shape with no more levels, or whose leading levels
differ. -/
theorem C50_broadcast_rejects {α : Type} (t : Tensor α) (lens lens' : List (List Nat))
    (hs : t.shape = Shape.mk' lens) (h : ¬ (lens.length < lens'.length ∧ lens'.take lens.length = lens)) :
    t.broadcastTo (Shape.mk' lens') = none := by
  unfold Tensor.broadcastTo
  by_cases h1 : lens.length < lens'.length
  · have hb : broadcastable t.shape (Shape.mk' lens') = false := by
      unfold broadcastable
      rw [hs]
      have : min (Shape.mk' lens).ndim (Shape.mk' lens').ndim = lens.length := by
        change min lens.length lens'.length = _; omega
      simp only [this]
      change (lens.take lens.length == lens'.take lens.length) = false
      rw [List.take_length]
      apply beq_eq_false_iff_ne.mpr
      intro hh
      exact h ⟨h1, hh.symm⟩
    rw [hs] at hb ⊢
    simp only [bind, Option.bind]
    rw [if_neg (by change ¬ ¬ lens.length < lens'.length; simpa using h1)]
    simp [hb]
  · rw [hs]
    simp only [bind, Option.bind]
    rw [if_pos (by change ¬ lens.length < lens'.length; exact h1)]

/-! ### Non-vacuity -/

example : ∀ x ∈ [Nested.node [.int 2, .int 3], .node [], .node [.int 1]], Uniform 1 x := by
  intro x hx
  simp only [List.mem_cons, List.not_mem_nil, or_false] at hx
  rcases hx with rfl | rfl | rfl <;>
  · refine .node fun c hc => ?_
    simp only [List.mem_cons, List.not_mem_nil, or_false] at hc
    try rcases hc with rfl | rfl
    all_goals (try subst hc) <;> exact .int _

example : Consistent [[2, 1], [2, 3, 1]] := by simp [Consistent]
example : (Shape.mk' [[2, 1], [2, 3, 1]]).sizes = [[5, 1], [2, 3, 1]] := by decide
example : (Tensor.mk' ['a', 'b', 'c'] (Shape.mk' [[2, 1]])).isSome = true ∧
    (([[2, 1]] : List (List Nat)) = [[2, 1], [2, 3, 1]].take 1) := by decide

/-- `C49_sizes_sum`, `C49_nested_sizes`, `C49_nested_total`, `C50_broadcast`, `C50_broadcast_scalar`, `C50_broadcast_twice`. -/
example := C49_sizes_sum [[2, 1], [2, 3, 1]] (by simp [Consistent])

theorem ex_uniform : ∀ x ∈ [Nested.node [.int 2, .int 3], .node [], .node [.int 1]], Uniform 1 x := by
  intro x hx
  simp only [List.mem_cons, List.not_mem_nil, or_false] at hx
  rcases hx with rfl | rfl | rfl <;>
  · refine .node fun c hc => ?_
    simp only [List.mem_cons, List.not_mem_nil, or_false] at hc <;>
    first | (rcases hc with rfl | rfl <;> exact .int _) | (subst hc; exact .int _) | exact hc.elim

example := C49_nested_sizes 1 _ ex_uniform
example := C49_nested_total 1 _ ex_uniform
example := C50_broadcast (α := Char) [[2, 1], [2, 3, 1]] (by simp [Consistent]) 1 (by simp) (by simp) ['a', 'b', 'c']
  ⟨['a', 'b', 'c'], Shape.mk' [[2, 1]]⟩ rfl
example := C50_broadcast_scalar (α := Char) [[2, 1], [2, 3, 1]] (by simp [Consistent]) (by simp) 'a'
example := C50_broadcast_twice (α := Char) [[2], [1, 2], [1, 2, 1]] (by simp [Consistent]) 1 2 (by simp) (by simp) (by simp) ['a', 'b']
  ⟨['a', 'b'], Shape.mk' [[2]]⟩ rfl

end Verif.Ragged
