import Verif.Ragged.Spec

/-! # Lemmas for ragged shapes -/

namespace Verif.Ragged

/-- `sizes` from the front. -/
def sizesRec : List (List Nat) → List (List Nat)
  | [] => []
  | [l] => [l]
  | l :: m :: rest =>
    match sizesRec (m :: rest) with
    | [] => []
    | s :: ss => (splitInto s l).map List.sum :: s :: ss

theorem sizesLoop_snoc (cur : List Nat) (rest : List (List Nat)) (l : List Nat) :
    ∃ init last, sizesLoop cur rest = init ++ [last] ∧
      sizesLoop cur (rest ++ [l]) = init ++ [last, (splitInto last l).map List.sum] := by
  induction rest generalizing cur with
  | nil => exact ⟨[], cur, rfl, rfl⟩
  | cons a rest ih =>
    obtain ⟨init, last, h1, h2⟩ := ih ((splitInto cur a).map List.sum)
    exact ⟨cur :: init, last, by simp [sizesLoop, h1], by simp [sizesLoop, h2]⟩

theorem rawSizes_reverse (lens : List (List Nat)) : (rawSizes lens).reverse = sizesRec lens := by
  induction lens with
  | nil => rfl
  | cons l ls ih =>
    cases ls with
    | nil => rfl
    | cons m rest =>
      unfold rawSizes at ih ⊢
      rw [List.reverse_cons]
      cases hr : (m :: rest).reverse with
      | nil => simp at hr
      | cons a t =>
        rw [hr] at ih
        simp only [List.cons_append] at ih ⊢
        obtain ⟨init, last, h1, h2⟩ := sizesLoop_snoc a t l
        rw [h2]
        rw [h1] at ih
        simp only [List.reverse_append, List.reverse_cons, List.reverse_nil, List.nil_append,
          List.singleton_append, List.cons_append] at ih ⊢
        simp only [sizesRec]
        rw [← ih]

theorem sizes_mk' (lens : List (List Nat)) : (Shape.mk' lens).sizes = sizesRec lens := by
  simp [Shape.mk', rawSizes_reverse]

theorem splitInto_length {α : Type} (xs : List α) (ns : List Nat) : (splitInto xs ns).length = ns.length := by
  induction ns generalizing xs with
  | nil => rfl
  | cons n ns ih => simp [splitInto, ih]

theorem sizesRec_cons (l m : List Nat) (rest : List (List Nat)) :
    ∃ s ss, sizesRec (m :: rest) = s :: ss ∧
      sizesRec (l :: m :: rest) = (splitInto s l).map List.sum :: s :: ss := by
  have hne : sizesRec (m :: rest) ≠ [] := by
    induction rest generalizing m with
    | nil => simp [sizesRec]
    | cons a r ih =>
      simp only [sizesRec]
      cases h : sizesRec (a :: r) with
      | nil => exact (ih a h).elim
      | cons => simp
  cases h : sizesRec (m :: rest) with
  | nil => exact (hne h).elim
  | cons s ss => exact ⟨s, ss, rfl, by simp [sizesRec, h]⟩

theorem sizesRec_lengths (lens : List (List Nat)) :
    (sizesRec lens).map List.length = lens.map List.length := by
  induction lens with
  | nil => rfl
  | cons l ls ih =>
    cases ls with
    | nil => rfl
    | cons m rest =>
      obtain ⟨s, ss, h1, h2⟩ := sizesRec_cons l m rest
      rw [h2, List.map_cons, ← h1, ih]
      simp [splitInto_length]

theorem sum_splitInto (xs : List Nat) (ns : List Nat) (h : ns.sum = xs.length) :
    ((splitInto xs ns).map List.sum).sum = xs.sum := by
  induction ns generalizing xs with
  | nil =>
    cases xs with
    | nil => rfl
    | cons => simp at h
  | cons n ns ih =>
    simp only [List.sum_cons] at h
    simp only [splitInto, List.map_cons, List.sum_cons]
    rw [ih (xs.drop n) (by simp; omega)]
    conv => rhs; rw [← List.take_append_drop n xs, List.sum_append]

theorem size_mk'_snoc (lens : List (List Nat)) (l : List Nat) : (Shape.mk' (lens ++ [l])).size = l.sum := by
  simp only [Shape.mk', rawSizes, List.reverse_append, List.reverse_cons, List.reverse_nil, List.nil_append,
    List.singleton_append]
  cases lens.reverse <;> simp [sizesLoop]

theorem size_cons_cons (l m : List Nat) (rest : List (List Nat)) :
    (Shape.mk' (l :: m :: rest)).size = (Shape.mk' (m :: rest)).size := by
  have hne : (m :: rest) ≠ [] := by simp
  rw [← List.dropLast_concat_getLast hne, ← List.cons_append, size_mk'_snoc, size_mk'_snoc]

theorem consistent_tail {l : List Nat} {ls : List (List Nat)} (h : Consistent (l :: ls)) : Consistent ls := by
  cases ls with
  | nil => trivial
  | cons m r => exact h.2

theorem sizesRec_sums (lens : List (List Nat)) (hc : Consistent lens) :
    ∀ s ∈ sizesRec lens, s.sum = (Shape.mk' lens).size := by
  induction lens with
  | nil => simp [sizesRec]
  | cons l ls ih =>
    cases ls with
    | nil =>
      intro s hs
      simp only [sizesRec, List.mem_singleton] at hs
      subst hs
      rfl
    | cons m rest =>
      obtain ⟨s, ss, h1, h2⟩ := sizesRec_cons l m rest
      have hlen := sizesRec_lengths (m :: rest)
      rw [h1] at hlen
      simp only [List.map_cons, List.cons.injEq] at hlen
      rw [h2, size_cons_cons]
      intro t ht
      rw [List.mem_cons] at ht
      rcases ht with rfl | ht
      · rw [sum_splitInto s l (by rw [hc.1, hlen.1])]
        exact ih hc.2 s (by rw [h1]; simp)
      · exact ih hc.2 t (by rw [h1]; exact ht)

/-! ### Nested sizes -/

theorem bfs_cons (x : Nested) (xs : List Nested) :
    bfs (x :: xs) = (x :: xs).map Nested.arity :: bfs ((x :: xs).flatMap Nested.children) := by
  rw [bfs]

theorem bfs_nil : bfs [] = [] := by rw [bfs]

theorem totalL_eq (q : List Nested) : Nested.totalL q = (q.map Nested.total).sum := by
  induction q with
  | nil => rfl
  | cons x xs ih => simp [Nested.totalL, ih]

theorem split_totals (q : List Nested) (d : Nat) (h : ∀ x ∈ q, Uniform (d + 1) x) :
    (splitInto ((q.flatMap Nested.children).map Nested.total) (q.map Nested.arity)).map List.sum =
      q.map Nested.total := by
  induction q with
  | nil => rfl
  | cons x xs ih =>
    have hx := h x (by simp)
    cases hx with
    | node hc =>
      rename_i cs
      simp only [List.flatMap_cons, Nested.children, List.map_append, List.map_cons, Nested.arity, splitInto,
        Nested.total, totalL_eq]
      have e : cs.length = (cs.map Nested.total).length := by simp
      rw [e, List.take_left, List.drop_left]
      have := ih (fun y hy => h y (by simp [hy]))
      rw [this]

theorem uniform_children (q : List Nested) (d : Nat) (h : ∀ x ∈ q, Uniform (d + 1) x) :
    ∀ x ∈ q.flatMap Nested.children, Uniform d x := by
  intro x hx
  rw [List.mem_flatMap] at hx
  obtain ⟨y, hy, hx⟩ := hx
  cases h y hy with
  | node hc => exact hc x hx

theorem uniform_zero (q : List Nested) (h : ∀ x ∈ q, Uniform 0 x) :
    q.flatMap Nested.children = [] ∧ q.map Nested.arity = q.map Nested.total := by
  induction q with
  | nil => exact ⟨rfl, rfl⟩
  | cons x xs ih =>
    have := ih (fun y hy => h y (by simp [hy]))
    cases h x (by simp)
    simp [Nested.children, Nested.arity, Nested.total, this]

theorem uniform_empty (q : List Nested) (d : Nat) (h : ∀ x ∈ q, Uniform (d + 1) x)
    (he : q.flatMap Nested.children = []) : q.map Nested.arity = q.map Nested.total := by
  induction q with
  | nil => rfl
  | cons x xs ih =>
    simp only [List.flatMap_cons, List.append_eq_nil_iff] at he
    have := ih (fun y hy => h y (by simp [hy])) he.2
    cases h x (by simp)
    simp only [Nested.children] at he
    simp [Nested.arity, Nested.total, this, he.1, Nested.totalL]

theorem sizesRec_bfs (d : Nat) (q : List Nested) (h : ∀ x ∈ q, Uniform d x) (k : Nat)
    (hk : k < (bfs q).length) : (sizesRec (bfs q))[k]? = some ((level k q).map Nested.total) := by
  induction d generalizing q k with
  | zero =>
    cases q with
    | nil => simp [bfs_nil] at hk
    | cons x xs =>
      obtain ⟨h1, h2⟩ := uniform_zero _ h
      rw [bfs_cons, h1, bfs_nil] at hk ⊢
      simp only [List.length_cons, List.length_nil, Nat.zero_add, Nat.lt_one_iff] at hk
      subst hk
      simp only [sizesRec, List.getElem?_cons_zero, level, h2]
  | succ d ih =>
    cases q with
    | nil => simp [bfs_nil] at hk
    | cons x xs =>
      have hu := uniform_children _ d h
      rw [bfs_cons] at hk ⊢
      generalize hq : (x :: xs).flatMap Nested.children = q' at *
      cases hq' : q' with
      | nil =>
        subst hq'
        rw [bfs_nil] at hk ⊢
        simp only [List.length_cons, List.length_nil, Nat.zero_add, Nat.lt_one_iff] at hk
        subst hk
        simp only [sizesRec, List.getElem?_cons_zero, level, uniform_empty _ d h hq]
      | cons y ys =>
        have e : bfs q' = (q'.map Nested.arity) :: bfs (q'.flatMap Nested.children) := by
          rw [hq', bfs_cons]
        rw [← hq', e]
        obtain ⟨s, ss, h1, h2⟩ := sizesRec_cons ((x :: xs).map Nested.arity) (q'.map Nested.arity)
          (bfs (q'.flatMap Nested.children))
        rw [h2]
        cases k with
        | zero =>
          have := ih q' hu 0 (by rw [e]; simp)
          rw [e, h1] at this
          simp only [List.getElem?_cons_zero, level, Option.some.injEq] at this ⊢
          rw [this, ← hq]
          exact split_totals (x :: xs) d h
        | succ k =>
          have := ih q' hu k (by simpa using hk)
          rw [e, h1] at this
          simp only [List.getElem?_cons_succ, level, hq]
          exact this

theorem consistent_bfs (d : Nat) (q : List Nested) (h : ∀ x ∈ q, Uniform d x) : Consistent (bfs q) := by
  induction d generalizing q with
  | zero =>
    cases q with
    | nil => rw [bfs_nil]; trivial
    | cons x xs => rw [bfs_cons, (uniform_zero _ h).1, bfs_nil]; trivial
  | succ d ih =>
    cases q with
    | nil => rw [bfs_nil]; trivial
    | cons x xs =>
      have hu := uniform_children _ d h
      have hi := ih _ hu
      have hl : ((x :: xs).map Nested.arity).sum = ((x :: xs).flatMap Nested.children).length := by
        clear hu hi ih
        generalize x :: xs = q at h
        induction q with
        | nil => rfl
        | cons a q ih =>
          have := ih (fun y hy => h y (by simp [hy]))
          cases h a (by simp)
          simp [Nested.arity, Nested.children, this]
      rw [bfs_cons]
      generalize (x :: xs).flatMap Nested.children = q' at hi hl
      cases q' with
      | nil => rw [bfs_nil]; trivial
      | cons y ys =>
        rw [bfs_cons] at hi ⊢
        exact ⟨by rw [hl]; simp, hi⟩

/-! ### Repetition -/

theorem length_repI {α : Type} (xs : List α) (ns : List Nat) (h : xs.length = ns.length) :
    (repI xs ns).length = ns.sum := by
  induction xs generalizing ns with
  | nil => cases ns <;> simp_all [repI]
  | cons x xs ih =>
    cases ns with
    | nil => simp at h
    | cons n ns => simp [repI, ih ns (by simpa using h)]

theorem repI_append {α : Type} (xs ys : List α) (ns ms : List Nat) (h : xs.length = ns.length) :
    repI (xs ++ ys) (ns ++ ms) = repI xs ns ++ repI ys ms := by
  induction xs generalizing ns with
  | nil => cases ns <;> simp_all [repI]
  | cons x xs ih =>
    cases ns with
    | nil => simp at h
    | cons n ns => simp [repI, ih ns (by simpa using h)]

theorem repI_replicate {α : Type} (x : α) (s : List Nat) :
    repI (List.replicate s.length x) s = List.replicate s.sum x := by
  induction s with
  | nil => simp [repI]
  | cons n s ih => simp [List.replicate_succ, repI, ih]

theorem repI_split {α : Type} (xs : List α) (l s : List Nat) (hx : xs.length = l.length)
    (hs : l.sum = s.length) : repI xs ((splitInto s l).map List.sum) = repI (repI xs l) s := by
  induction xs generalizing l s with
  | nil => cases l <;> cases s <;> simp_all [repI]
  | cons x xs ih =>
    cases l with
    | nil => simp at hx
    | cons n l =>
      simp only [List.sum_cons] at hs
      simp only [splitInto, List.map_cons, repI]
      have hn : (s.take n).length = n := by simp; omega
      conv => rhs; rw [← List.take_append_drop n s]
      rw [repI_append _ _ _ _ (by simp [hn]), ih l (s.drop n) (by simpa using hx) (by simp; omega)]
      congr 1
      have := repI_replicate x (s.take n)
      rw [hn] at this
      exact this.symm

theorem repeatLevels_sizes {α : Type} (xs : List α) (l : List Nat) (ls : List (List Nat))
    (hc : Consistent (l :: ls)) (hx : xs.length = l.length) (s ss) (h : sizesRec (l :: ls) = s :: ss) :
    repI xs s = repeatLevels xs (l :: ls) := by
  induction ls generalizing xs l s ss with
  | nil =>
    simp only [sizesRec, List.cons.injEq] at h
    rw [← h.1]; rfl
  | cons m rest ih =>
    obtain ⟨s', ss', h1, h2⟩ := sizesRec_cons l m rest
    have hlen := sizesRec_lengths (m :: rest)
    rw [h1] at hlen
    simp only [List.map_cons, List.cons.injEq] at hlen
    rw [h2] at h
    simp only [List.cons.injEq] at h
    rw [← h.1, repI_split xs l s' hx (by rw [hc.1, hlen.1])]
    have := ih (repI xs l) m hc.2 (by rw [length_repI xs l hx, hc.1]) s' ss' h1
    rw [this]
    rfl

theorem sizesRec_drop (lens : List (List Nat)) (k : Nat) :
    sizesRec (lens.drop k) = (sizesRec lens).drop k := by
  induction k generalizing lens with
  | zero => simp
  | succ k ih =>
    cases lens with
    | nil => simp [sizesRec]
    | cons l ls =>
      rw [List.drop_succ_cons, ih]
      cases ls with
      | nil => simp [sizesRec]
      | cons m rest =>
        obtain ⟨s, ss, h1, h2⟩ := sizesRec_cons l m rest
        rw [h2, List.drop_succ_cons, h1]

theorem consistent_drop (lens : List (List Nat)) (k : Nat) (h : Consistent lens) :
    Consistent (lens.drop k) := by
  induction k generalizing lens with
  | zero => simpa
  | succ k ih =>
    cases lens with
    | nil => simp [Consistent]
    | cons l ls => exact ih ls (consistent_tail h)

theorem consistent_take (lens : List (List Nat)) (k : Nat) (h : Consistent lens) :
    Consistent (lens.take k) := by
  induction k generalizing lens with
  | zero => simp [Consistent]
  | succ k ih =>
    match lens, h with
    | [], _ => simp [Consistent]
    | [_], _ => simp [Consistent]
    | l :: m :: rest, h =>
      cases k with
      | zero => simp [Consistent]
      | succ k => exact ⟨h.1, ih (m :: rest) h.2⟩

theorem consistent_get (lens : List (List Nat)) (k : Nat) (h : Consistent lens) (a b : List Nat)
    (ha : lens[k]? = some a) (hb : lens[k + 1]? = some b) : a.sum = b.length := by
  induction k generalizing lens with
  | zero =>
    match lens, h with
    | [], _ => simp at ha
    | [_], _ => simp at hb
    | l :: m :: rest, h =>
      simp only [List.getElem?_cons_zero, Option.some.injEq, List.getElem?_cons_succ] at ha hb
      rw [← ha, ← hb]; exact h.1
  | succ k ih =>
    cases lens with
    | nil => simp at ha
    | cons l ls => exact ih ls (consistent_tail h) (by simpa using ha) (by simpa using hb)

theorem size_take (lens : List (List Nat)) (k : Nat) (a : List Nat) (ha : lens[k]? = some a) :
    (Shape.mk' (lens.take (k + 1))).size = a.sum := by
  have : lens.take (k + 1) = lens.take k ++ [a] := by
    rw [List.take_add_one, ha]; rfl
  rw [this, size_mk'_snoc]

end Verif.Ragged
