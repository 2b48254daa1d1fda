import Verif.Ragged.OldModel
import Mathlib.Tactic.Abel
import Mathlib.Tactic.Ring
import Mathlib.Tactic.NormNum

/-! # C129, C130: segment sums of `RaggedTensor.reduce_add`, and how `sizes` travel -/

namespace Verif.Ragged.Old

variable {R : Type} [AddCommMonoid R]

/-! ### Specification -/

/-- The entries of group `i` of a row: group sizes are consecutive lengths. -/
def group {α : Type} (sizes : List Nat) (i : Nat) (row : List α) : List α :=
  (row.drop (sizes.take i).sum).take (sizes.getD i 0)

/-- Every row of `out` holds the sums of the groups of the corresponding row of `rows`. -/
def IsGroupSums (sizes : List Nat) (rows out : List (List R)) : Prop :=
  out.length = rows.length ∧ ∀ (b : Nat) (h : b < out.length) (h' : b < rows.length),
    out[b].length = sizes.length ∧ ∀ (i : Nat) (hi : i < out[b].length),
      out[b][i] = (group sizes i rows[b]).sum

/-! ### Lemmas -/

theorem modify_pre (pre : List R) (y x : R) (post : List R) :
    (pre ++ y :: post).modify pre.length (· + x) = pre ++ (y + x) :: post := by
  induction pre with
  | nil => rfl
  | cons a pre ih => simp [ih]

theorem scatter_replicate (pre post : List R) (y : R) (n : Nat) (is : List Nat) (xs : List R)
    (h : n ≤ xs.length) :
    scatterRow (pre ++ y :: post) (List.replicate n pre.length ++ is) xs =
      scatterRow (pre ++ (y + (xs.take n).sum) :: post) is (xs.drop n) := by
  induction n generalizing y xs with
  | zero => simp
  | succ n ih =>
    cases xs with
    | nil => simp at h
    | cons x xs =>
      simp only [List.replicate_succ, List.cons_append, scatterRow]
      rw [if_pos (by simp), modify_pre, ih _ _ (by simpa using h)]
      simp [add_assoc]

theorem scatter_groups (pre : List R) (ns : List Nat) (xs : List R) (h : xs.length = ns.sum) :
    scatterRow (pre ++ List.replicate ns.length 0) (repI (List.range' pre.length ns.length) ns) xs =
      .ok (pre ++ (splitInto xs ns).map List.sum) := by
  induction ns generalizing pre xs with
  | nil => simp [repI, splitInto, scatterRow]
  | cons n ns ih =>
    simp only [List.length_cons, List.range'_succ, repI, List.replicate_succ, splitInto, List.map_cons]
    rw [scatter_replicate _ _ _ _ _ _ (by rw [h]; simp)]
    have := ih (pre ++ [(xs.take n).sum]) (xs.drop n) (by
      rw [List.length_drop, h, List.sum_cons]; omega)
    simp only [List.length_append, List.length_cons, List.length_nil, List.append_assoc,
      List.cons_append, List.nil_append] at this
    rw [zero_add]
    exact this

theorem scatter_const (pre post : List R) (y : R) (xs : List R) :
    scatterRow (pre ++ y :: post) (List.replicate xs.length pre.length) xs =
      .ok (pre ++ (y + xs.sum) :: post) := by
  have := scatter_replicate pre post y xs.length [] xs le_rfl
  simpa [scatterRow] using this

theorem scatterRows_map (n : Nat) (idx : List Nat) (rows : List (List R)) (f : List R → List R)
    (h : ∀ r ∈ rows, scatterRow (List.replicate n 0) idx r = .ok (f r)) :
    scatterRows n idx rows = .ok (rows.map f) := by
  induction rows with
  | nil => rfl
  | cons r rs ih =>
    simp [scatterRows, h r (by simp), ih (fun r hr => h r (by simp [hr])), bind, Except.bind, pure, Except.pure]

theorem repI_length {α : Type} (xs : List α) (ns : List Nat) (h : xs.length = ns.length) :
    (repI xs ns).length = ns.sum := by
  induction xs generalizing ns with
  | nil => cases ns <;> simp_all [repI]
  | cons x xs ih =>
    cases ns with
    | nil => simp at h
    | cons n ns => simp [repI, ih ns (by simpa using h)]

theorem splitInto_length {α : Type} (xs : List α) (ns : List Nat) : (splitInto xs ns).length = ns.length := by
  induction ns generalizing xs with
  | nil => rfl
  | cons n ns ih => simp [splitInto, ih]

theorem splitInto_getElem {α : Type} (xs : List α) (ns : List Nat) (i : Nat) (h : i < (splitInto xs ns).length) :
    (splitInto xs ns)[i] = group ns i xs := by
  induction ns generalizing xs i with
  | nil => simp [splitInto] at h
  | cons n ns ih =>
    cases i with
    | zero => simp [splitInto, group]
    | succ i =>
      simp only [splitInto, List.getElem_cons_succ]
      rw [ih]
      simp [group, List.drop_drop]

theorem splitInto_flatten {α : Type} (xs : List α) (ns : List Nat) (h : xs.length = ns.sum) :
    (splitInto xs ns).flatten = xs := by
  induction ns generalizing xs with
  | nil => simpa [splitInto, eq_comm] using h
  | cons n ns ih =>
    simp only [splitInto, List.flatten_cons]
    rw [ih _ (by rw [List.length_drop, h, List.sum_cons]; omega), List.take_append_drop]

theorem groupIndices_ok (ns : List Nat) (h : ns ≠ []) :
    groupIndices (ns.map Int.ofNat) = .ok (repI (List.range' 0 ns.length) ns) := by
  have h1 : (ns.map Int.ofNat).any (· < 0) = false := by
    rw [List.any_eq_false]
    intro x hx
    obtain ⟨n, -, rfl⟩ := List.mem_map.mp hx
    simp
  have h2 : (ns.map Int.ofNat).map Int.toNat = ns := by
    rw [List.map_map]
    conv_rhs => rw [← List.map_id ns]
    apply List.map_congr_left
    intro n _
    simp
  rw [groupIndices, if_neg (by simpa using h), h1, h2]
  simp [List.range_eq_range']

/-- Sizes with no negative entry are natural numbers. -/
theorem exists_nat (s : List Int) (h : ∀ z ∈ s, 0 ≤ z) : ∃ ns : List Nat, s = ns.map Int.ofNat := by
  induction s with
  | nil => exact ⟨[], rfl⟩
  | cons z s ih =>
    obtain ⟨ns, rfl⟩ := ih (fun z hz => h z (by simp [hz]))
    obtain ⟨n, rfl⟩ := Int.eq_ofNat_of_zero_le (h z (by simp))
    exact ⟨n :: ns, rfl⟩

omit [AddCommMonoid R] in
theorem width_of {shape : List Nat} {rows : List (List R)} (h : (⟨shape, rows⟩ : Tens R).WF) {lead : List Nat}
    {m : Nat} (hs : shape = lead ++ [m]) : ∀ r ∈ rows, r.length = m := by
  intro r hr
  have := h.width r hr
  simpa [hs] using this

theorem reduceAdd_new (lead : List Nat) (m : Nat) (rows : List (List R)) (sizes : List Int) (idx : List Nat)
    (f : List R → List R) (h1 : groupIndices sizes >>= (broadcastRow · (lead ++ [m])) = .ok idx)
    (h2 : ∀ r ∈ rows, scatterRow (List.replicate sizes.length 0) idx r = .ok (f r)) :
    (Obj.new ⟨lead ++ [m], rows⟩ sizes).reduceAdd =
      .ok (⟨⟨lead ++ [m], rows⟩, some sizes, some idx, some (lead ++ [sizes.length])⟩,
        Obj.new ⟨lead ++ [sizes.length], rows.map f⟩ sizes) := by
  cases hg : groupIndices sizes with
  | error e => simp [hg, bind, Except.bind] at h1
  | ok v =>
    simp only [hg, bind, Except.bind] at h1
    simp [Obj.reduceAdd, Obj.new, Obj.fresh, Obj.reducedShape, Obj.reduceIndices, hg, h1, bind, Except.bind, pure,
      Except.pure, scatterRows_map _ _ _ f h2]

/-! ### C129 -/

/-- **C129** `RaggedTensor(x, sizes=sizes).reduce_add()` for any leading shape: if the sizes (at least one,
none negative) add up to the last dimension, the result has the last dimension replaced by the number of groups
and its entries are the sums of the consecutive groups. -/
theorem C129_group_sums (lead : List Nat) (m : Nat) (rows : List (List R)) (hwf : (⟨lead ++ [m], rows⟩ : Tens R).WF)
    (sizes : List Nat) (hne : sizes ≠ []) (hsum : sizes.sum = m) :
    ∃ o' out, (Obj.new ⟨lead ++ [m], rows⟩ (sizes.map Int.ofNat)).reduceAdd = .ok (o', out) ∧
      out.t.shape = lead ++ [sizes.length] ∧ out.t.WF ∧ IsGroupSums sizes rows out.t.rows := by
  have hw := width_of hwf rfl
  have hlen : (repI (List.range' 0 sizes.length) sizes).length = m := by
    rw [repI_length _ _ (by simp), hsum]
  refine ⟨_, _, reduceAdd_new lead m rows _ (repI (List.range' 0 sizes.length) sizes)
    (fun r => (splitInto r sizes).map List.sum) ?_ ?_, by simp [Obj.new, Obj.fresh], ?_, ?_⟩
  · rw [groupIndices_ok _ hne]
    simp [bind, Except.bind, broadcastRow, hlen]
  · intro r hr
    have := scatter_groups [] sizes r (by rw [hw r hr, hsum])
    simpa using this
  · constructor
    · have := hwf.count
      simpa [Obj.new, Obj.fresh] using this
    · intro r hr
      simp only [Obj.new, Obj.fresh, List.mem_map] at hr
      obtain ⟨r', -, rfl⟩ := hr
      simp [Obj.new, Obj.fresh, splitInto_length]
  · constructor
    · simp [Obj.new, Obj.fresh]
    · intro b h h'
      simp only [Obj.new, Obj.fresh, List.getElem_map, List.length_map, splitInto_length, true_and]
      intro i hi
      rw [splitInto_getElem]

/-- A 2 x 5 tensor with groups of 2, 0 and 3: the hypotheses are met, with values. -/
example : ∃ o', (Obj.new (⟨[2, 5], [[1, 2, 3, 4, 5], [10, 20, 30, 40, 50]]⟩ : Tens Nat) [2, 0, 3]).reduceAdd =
    .ok (o', Obj.new ⟨[2, 3], [[3, 0, 12], [30, 0, 120]]⟩ [2, 0, 3]) := ⟨_, rfl⟩

example : (⟨[2, 5], [[1, 2, 3, 4, 5], [10, 20, 30, 40, 50]]⟩ : Tens Nat).WF := ⟨rfl, by decide⟩

/-- **C129** nothing is lost or counted twice: the group sums of every row add up to the sum of the row. -/
theorem C129_total (lead : List Nat) (m : Nat) (rows : List (List R)) (hwf : (⟨lead ++ [m], rows⟩ : Tens R).WF)
    (sizes : List Nat) (hne : sizes ≠ []) (hsum : sizes.sum = m) :
    ∃ o' out, (Obj.new ⟨lead ++ [m], rows⟩ (sizes.map Int.ofNat)).reduceAdd = .ok (o', out) ∧
      out.t.rows.map List.sum = rows.map List.sum := by
  have hw := width_of hwf rfl
  have hlen : (repI (List.range' 0 sizes.length) sizes).length = m := by
    rw [repI_length _ _ (by simp), hsum]
  refine ⟨_, _, reduceAdd_new lead m rows _ (repI (List.range' 0 sizes.length) sizes)
    (fun r => (splitInto r sizes).map List.sum) ?_ ?_, ?_⟩
  · rw [groupIndices_ok _ hne]
    simp [bind, Except.bind, broadcastRow, hlen]
  · intro r hr
    have := scatter_groups [] sizes r (by rw [hw r hr, hsum])
    simpa using this
  · simp only [Obj.new, Obj.fresh, List.map_map]
    apply List.map_congr_left
    intro r hr
    simp only [Function.comp]
    rw [← List.sum_flatten, splitInto_flatten _ _ (by rw [hw r hr, hsum])]

/-- **C129** which sizes are rejected: the call succeeds iff there is at least one group, none is negative, the
tensor has a dimension, and the sizes add up to the last dimension *or to 1*. -/
theorem C129_accepts (t : Tens R) (hwf : t.WF) (sizes : List Int) :
    (∃ r, (Obj.new t sizes).reduceAdd = .ok r) ↔
      sizes ≠ [] ∧ (∀ z ∈ sizes, 0 ≤ z) ∧ ∃ (lead : List Nat) (m : Nat), t.shape = lead ++ [m] ∧
        (sizes.sum = (m : Int) ∨ sizes.sum = 1) := by
  by_cases hne : sizes = []
  · subst hne
    simp [Obj.reduceAdd, Obj.new, Obj.fresh, Obj.reducedShape, Obj.reduceIndices, groupIndices, bind, Except.bind]
  by_cases hneg : ∀ z ∈ sizes, 0 ≤ z
  swap
  · have : sizes.any (· < 0) = true := by
      rw [List.any_eq_true]
      push Not at hneg
      obtain ⟨z, h1, h2⟩ := hneg
      exact ⟨z, h1, by simpa using h2⟩
    simp only [hneg, false_and, and_false, iff_false]
    simp [Obj.reduceAdd, Obj.new, Obj.fresh, Obj.reducedShape, Obj.reduceIndices, groupIndices, hne, this, bind,
      Except.bind]
  obtain ⟨ns, rfl⟩ := exists_nat sizes hneg
  have hne' : ns ≠ [] := by simpa using hne
  have hsum : (ns.map Int.ofNat).sum = ((ns.sum : Nat) : Int) := by
    induction ns with
    | nil => rfl
    | cons n ns ih =>
      by_cases h : ns = []
      · subst h; simp
      · rw [List.map_cons, List.sum_cons, List.sum_cons, ih (by simpa using h)
          (fun z hz => hneg z (by simp only [List.map_cons, List.mem_cons]; exact Or.inr hz)) h]
        simp
  have hl : (repI (List.range' 0 ns.length) ns).length = ns.sum := repI_length _ _ (by simp)
  obtain ⟨shape, rows⟩ := t
  rcases List.eq_nil_or_concat shape with rfl | ⟨lead, m, rfl⟩
  · simp [Obj.reduceAdd, Obj.new, Obj.fresh, Obj.reducedShape, Obj.reduceIndices, groupIndices_ok _ hne', bind,
      Except.bind, broadcastRow]
  · rw [List.concat_eq_append] at *
    have hw := width_of hwf rfl
    by_cases h1 : ns.sum = m
    · obtain ⟨o', out, h, -⟩ := C129_group_sums lead m rows hwf ns hne' h1
      refine iff_of_true ⟨_, h⟩ ⟨hne, hneg, lead, m, rfl, Or.inl ?_⟩
      rw [hsum, h1]
    · by_cases h2 : ns.sum = 1
      · refine iff_of_true ?_ ⟨hne, hneg, lead, m, rfl, Or.inr (by rw [hsum, h2]; rfl)⟩
        obtain ⟨i, hi⟩ : ∃ i, repI (List.range' 0 ns.length) ns = [i] := by
          rw [h2] at hl
          exact List.length_eq_one_iff.mp hl
        have hlt : i < ns.length := by
          have hmem : ∀ (xs : List Nat) (k : List Nat), ∀ x ∈ repI xs k, x ∈ xs := by
            intro xs
            induction xs with
            | nil => intro k x hx; cases k <;> simp [repI] at hx
            | cons y ys ih =>
              intro k x hx
              cases k with
              | nil => simp [repI] at hx
              | cons n k =>
                simp only [repI, List.mem_append, List.mem_replicate] at hx
                rcases hx with ⟨-, rfl⟩ | hx
                · simp
                · simp [ih k x hx]
          have := hmem _ _ i (by rw [hi]; simp)
          simpa using this
        have hb : groupIndices (ns.map Int.ofNat) >>= (broadcastRow · (lead ++ [m])) = .ok (List.replicate m i) := by
          rw [groupIndices_ok _ hne', hi]
          have : ¬ (1 = m) := by rw [← h2]; exact h1
          simp [bind, Except.bind, broadcastRow, this]
        refine ⟨_, reduceAdd_new lead m rows _ _
          (fun r => List.replicate i 0 ++ (0 + r.sum) :: List.replicate (ns.length - i - 1) 0) hb ?_⟩
        intro r hr
        have := scatter_const (List.replicate i (0 : R)) (List.replicate (ns.length - i - 1) 0) 0 r
        rw [hw r hr, List.length_replicate, ← List.replicate_succ, List.replicate_append_replicate,
          show i + (ns.length - i - 1 + 1) = ns.length by omega] at this
        simpa using this
      · refine iff_of_false ?_ ?_
        · rintro ⟨r, hr⟩
          have : broadcastRow (repI (List.range' 0 ns.length) ns) (lead ++ [m]) = .error .torch := by
            simp only [broadcastRow, List.getLast?_append, List.getLast?_singleton, Option.some_or]
            rw [if_neg (by rw [hl]; exact h1)]
            split
            · rename_i x hx
              rw [hx] at hl
              simp at hl
              omega
            · rfl
          simp [Obj.reduceAdd, Obj.new, Obj.fresh, Obj.reducedShape, Obj.reduceIndices, groupIndices_ok _ hne', bind,
            Except.bind, this] at hr
        · rintro ⟨-, -, lead', m', h3, h4⟩
          obtain ⟨rfl, h5⟩ := List.append_inj' h3 rfl
          simp only [List.cons.injEq, and_true] at h5
          subst h5
          rw [hsum] at h4
          rcases h4 with h4 | h4
          · exact h1 (by exact_mod_cast h4)
          · exact h2 (by exact_mod_cast h4)

/-- **C129** fails where the sizes add up to 1 but the last dimension is not 1 (the hole in
`C129_accepts`): the one group that should have one entry silently receives the whole row. -/
theorem C129_one_takes_all (lead : List Nat) (m : Nat) (hm : m ≠ 1) (rows : List (List R))
    (hwf : (⟨lead ++ [m], rows⟩ : Tens R).WF) (i j : Nat) :
    ∃ o', (Obj.new ⟨lead ++ [m], rows⟩ (List.replicate i (0 : Int) ++ 1 :: List.replicate j 0)).reduceAdd =
      .ok (o', Obj.new ⟨lead ++ [i + 1 + j], rows.map fun r => List.replicate i 0 ++ r.sum :: List.replicate j 0⟩
        (List.replicate i (0 : Int) ++ 1 :: List.replicate j 0)) := by
  have hw := width_of hwf rfl
  have hz : (List.replicate i (0 : Int) ++ 1 :: List.replicate j 0) =
      (List.replicate i (0 : Nat) ++ 1 :: List.replicate j 0).map Int.ofNat := by simp
  have hr : ∀ k, repI (List.range' k (List.replicate i (0 : Nat) ++ 1 :: List.replicate j 0).length)
      (List.replicate i (0 : Nat) ++ 1 :: List.replicate j 0) = [k + i] := by
    induction i with
    | zero =>
      intro k
      have h0 : ∀ (j k : Nat) (l : List Nat), repI l (List.replicate j 0 : List Nat) = [] := by
        intro j
        induction j with
        | zero => intro _ l; cases l <;> rfl
        | succ j ih => intro k l; cases l <;> simp [List.replicate_succ, repI, ih k]
      simp [List.range'_succ, repI, h0 j k]
    | succ i ih =>
      intro k
      have ih' := ih (by simp) (k + 1)
      simp only [List.replicate_succ, List.cons_append, List.length_cons, List.range'_succ, repI, List.replicate_zero,
        List.nil_append]
      rw [ih']
      congr 1; omega
  have hb : groupIndices (List.replicate i (0 : Int) ++ 1 :: List.replicate j 0) >>= (broadcastRow · (lead ++ [m])) =
      .ok (List.replicate m i) := by
    rw [hz, groupIndices_ok _ (by simp), hr]
    simp [bind, Except.bind, broadcastRow, hm.symm]
  have hlen : (List.replicate i (0 : Int) ++ 1 :: List.replicate j 0).length = i + 1 + j := by
    simp; omega
  refine ⟨_, (reduceAdd_new lead m rows _ _ (fun r => List.replicate i 0 ++ r.sum :: List.replicate j 0) hb ?_).trans
    (by rw [hlen])⟩
  intro r hrm
  have := scatter_const (List.replicate i (0 : R)) (List.replicate j 0) 0 r
  rw [hw r hrm, List.length_replicate, ← List.replicate_succ, List.replicate_append_replicate, zero_add] at this
  rw [hlen, show i + 1 + j = i + (j + 1) by omega]
  exact this

/-! ### C130 -/

/-- **C130** a single result of a torch function has the sizes of the leftmost `RaggedTensor` among the arguments,
whatever other arguments there are and whatever the kernel does to the shape. -/
theorem C130_carried (F : List (Tens R) → Except Err (Out R)) (before : List (Tens R)) (o : Obj R)
    (after : List (Arg R)) (t : Tens R)
    (hF : F (before ++ o.t :: after.map Arg.tens) = .ok (.one t)) :
    ∃ r, torchFn F (before.map .plain ++ .ragged o :: after) = .ok (.one r) ∧ r.t = t ∧ r.sizes = o.sizes := by
  have hd : dispatcher (before.map .plain ++ .ragged o :: after) = some o := by
    induction before with
    | nil => rfl
    | cons b bs ih =>
      simp only [List.map_cons, List.cons_append, dispatcher]
      clear hF ih
      induction bs with
      | nil => rfl
      | cons c cs ih => simpa [dispatcher] using ih
  have hm : (before.map Arg.plain ++ Arg.ragged o :: after).map Arg.tens =
      before ++ o.t :: after.map Arg.tens := by
    simp [Function.comp_def, Arg.tens]
  exact ⟨Obj.fresh t o.sizes, by simp [torchFn, hd, hm, hF, bind, Except.bind, pure, Except.pure], rfl, rfl⟩

/-- **C130** so sums over groups commute with a torch function that acts on the entries one by one: `reduce_add` of
`f(x)` sums `f` over the groups of `x`. -/
theorem C130_elementwise (f : R → R) (lead : List Nat) (m : Nat) (rows : List (List R))
    (hwf : (⟨lead ++ [m], rows⟩ : Tens R).WF) (sizes : List Nat) (hne : sizes ≠ []) (hsum : sizes.sum = m)
    (F : List (Tens R) → Except Err (Out R))
    (hF : F [⟨lead ++ [m], rows⟩] = .ok (.one ⟨lead ++ [m], rows.map (List.map f)⟩)) :
    ∃ y o' out, torchFn F [.ragged (Obj.new ⟨lead ++ [m], rows⟩ (sizes.map Int.ofNat))] = .ok (.one y) ∧
      y.reduceAdd = .ok (o', out) ∧ out.t.shape = lead ++ [sizes.length] ∧
      out.t.rows.length = rows.length ∧
      ∀ (b : Nat) (h : b < out.t.rows.length) (h' : b < rows.length) (i : Nat) (hi : i < out.t.rows[b].length),
        out.t.rows[b][i] = ((group sizes i rows[b]).map f).sum := by
  have hwf' : (⟨lead ++ [m], rows.map (List.map f)⟩ : Tens R).WF := by
    constructor
    · simpa using hwf.count
    · intro r hr
      obtain ⟨r', h', rfl⟩ := List.mem_map.mp hr
      simpa using hwf.width r' h'
  obtain ⟨o', out, h1, h2, -, h3, h4⟩ := C129_group_sums lead m _ hwf' sizes hne hsum
  refine ⟨Obj.new ⟨lead ++ [m], rows.map (List.map f)⟩ (sizes.map Int.ofNat), o', out, ?_, h1, h2, by simpa using h3, ?_⟩
  · simp [torchFn, dispatcher, Arg.tens, Obj.new, Obj.fresh, hF, bind, Except.bind, pure, Except.pure]
  · intro b h h' i hi
    rw [(h4 b h (by simpa using h')).2 i hi]
    simp [group, List.map_take, List.map_drop]

/-- Squaring a row with groups of 1 and 2, then summing. -/
example : ∃ y o', torchFn (fun ts => .ok (.one ⟨[3], ts.flatMap fun t => t.rows.map (List.map fun n => n * n)⟩))
      [.ragged (Obj.new (⟨[3], [[1, 2, 3]]⟩ : Tens Nat) [1, 2])] = .ok (.one y) ∧
    y.reduceAdd = .ok (o', Obj.new ⟨[2], [[1, 13]]⟩ [1, 2]) := ⟨_, _, rfl, rfl⟩

/-- **C130** the tensors of a tuple result (`max`, `sort`, `split`, ...) have no sizes: `reduce_add` on each of them
raises `AttributeError`, and so it does on every result of a torch function dispatched on one of them. -/
theorem C130_tuple_lost (F : List (Tens R) → Except Err (Out R)) (args : List (Arg R)) (os : List (Obj R))
    (h : torchFn F args = .ok (.many os)) (o : Obj R) (ho : o ∈ os) :
    o.reduceAdd = .error .attribute ∧
    ∀ (G : List (Tens R) → Except Err (Out R)) (after : List (Arg R)) (r : Obj R),
      torchFn G (.ragged o :: after) = .ok (.one r) → r.reduceAdd = .error .attribute := by
  have key : ∀ t : Tens R, (Obj.fresh t none).reduceAdd = .error .attribute := by
    intro t
    simp [Obj.reduceAdd, Obj.fresh, Obj.reducedShape, bind, Except.bind]
  have hos : ∃ t, o = Obj.fresh t none := by
    unfold torchFn at h
    cases hd : dispatcher args with
    | none => simp [hd] at h
    | some self =>
      cases hF : F (args.map Arg.tens) with
      | error e => simp [hd, hF, bind, Except.bind] at h
      | ok out =>
        cases out with
        | one t => simp [hd, hF, bind, Except.bind, pure, Except.pure] at h
        | many ts =>
          simp only [hd, hF, bind, Except.bind, pure, Except.pure, Except.ok.injEq, Ret.many.injEq] at h
          subst h
          obtain ⟨t, -, rfl⟩ := List.mem_map.mp ho
          exact ⟨t, rfl⟩
  obtain ⟨t, rfl⟩ := hos
  refine ⟨key t, ?_⟩
  intro G after r hr
  simp only [torchFn, dispatcher, bind, Except.bind, pure, Except.pure, List.map_cons] at hr
  cases hG : G ((Arg.ragged (Obj.fresh t none)).tens :: after.map Arg.tens) with
  | error e => simp [hG] at hr
  | ok out =>
    cases out with
    | many ts => simp [hG] at hr
    | one t' =>
      simp only [hG, Except.ok.injEq, Ret.one.injEq] at hr
      subst hr
      exact key t'

/-- `sort` of a ragged row returns a pair. -/
example : ∃ os o, torchFn (fun ts => .ok (.many ts)) [.ragged (Obj.new (⟨[2], [[1, 2]]⟩ : Tens Nat) [2])] =
    .ok (.many os) ∧ o ∈ os := ⟨_, _, rfl, List.mem_singleton.mpr rfl⟩

/-- **C130** nothing is compared when two ragged tensors are combined: for tensors of one shape with sizes `s` and
`s'`, `x + y` is grouped as `x` and `y + x` as `y`, although the entries are equal. -/
theorem C130_operands_not_compared (add : List (Tens R) → Except Err (Out R)) (x y z : Tens R) (s s' : List Int)
    (h1 : add [x, y] = .ok (.one z)) (h2 : add [y, x] = .ok (.one z)) :
    ∃ a b, torchFn add [.ragged (Obj.new x s), .ragged (Obj.new y s')] = .ok (.one a) ∧
      torchFn add [.ragged (Obj.new y s'), .ragged (Obj.new x s)] = .ok (.one b) ∧
      a = Obj.new z s ∧ b = Obj.new z s' := by
  refine ⟨_, _, ?_, ?_, rfl, rfl⟩ <;>
  simp [torchFn, dispatcher, Arg.tens, Obj.new, Obj.fresh, h1, h2, bind, Except.bind, pure, Except.pure]

/-- The two results have different group sums. -/
example : ∃ o o', (Obj.new (⟨[3], [[1, 2, 3]]⟩ : Tens Nat) [1, 2]).reduceAdd = .ok (o, Obj.new ⟨[2], [[1, 5]]⟩ [1, 2]) ∧
    (Obj.new (⟨[3], [[1, 2, 3]]⟩ : Tens Nat) [2, 1]).reduceAdd = .ok (o', Obj.new ⟨[2], [[3, 3]]⟩ [2, 1]) :=
  ⟨_, _, rfl, rfl⟩

/-- **C130** the result of `reduce_add` still has the sizes of the original, which do not describe it: a second
`reduce_add` raises unless the sizes add up to their own number (or to 1). -/
theorem C130_reduced_keeps_sizes (lead : List Nat) (m : Nat) (rows : List (List R))
    (hwf : (⟨lead ++ [m], rows⟩ : Tens R).WF) (sizes : List Nat) (hne : sizes ≠ []) (hsum : sizes.sum = m) :
    ∃ o' out, (Obj.new ⟨lead ++ [m], rows⟩ (sizes.map Int.ofNat)).reduceAdd = .ok (o', out) ∧
      out.sizes = some (sizes.map Int.ofNat) ∧
      ((∃ r, out.reduceAdd = .ok r) ↔ sizes.sum = sizes.length ∨ sizes.sum = 1) := by
  obtain ⟨o', out, h1, h2, h3, -⟩ := C129_group_sums lead m rows hwf sizes hne hsum
  have hout : out = Obj.new out.t (sizes.map Int.ofNat) := by
    have hw := width_of hwf rfl
    have hlen : (repI (List.range' 0 sizes.length) sizes).length = m := by
      rw [repI_length _ _ (by simp), hsum]
    have := reduceAdd_new lead m rows (sizes.map Int.ofNat) (repI (List.range' 0 sizes.length) sizes)
      (fun r => (splitInto r sizes).map List.sum) (by
        rw [groupIndices_ok _ hne]
        simp [bind, Except.bind, broadcastRow, hlen]) (by
        intro r hr
        have := scatter_groups [] sizes r (by rw [hw r hr, hsum])
        simpa using this)
    rw [h1] at this
    simp only [Except.ok.injEq, Prod.mk.injEq] at this
    rw [this.2]
    rfl
  refine ⟨o', out, h1, by rw [hout]; rfl, ?_⟩
  rw [hout, C129_accepts _ h3]
  have hs : (sizes.map Int.ofNat).sum = ((sizes.sum : Nat) : Int) := by
    clear hne hsum h1 h2 hout
    induction sizes with
    | nil => rfl
    | cons n ns ih => simp [ih]
  rw [hs]
  constructor
  · rintro ⟨-, -, lead', m', h4, h5⟩
    rw [h2] at h4
    obtain ⟨-, h6⟩ := List.append_inj' h4 rfl
    simp only [List.cons.injEq, and_true] at h6
    rcases h5 with h5 | h5
    · left; rw [h6]; exact_mod_cast h5
    · right; exact_mod_cast h5
  · intro h
    refine ⟨by simpa using hne, ?_, lead, sizes.length, h2, ?_⟩
    · intro z hz
      obtain ⟨n, -, rfl⟩ := List.mem_map.mp hz
      simp
    · rcases h with h | h
      · left; exact_mod_cast h
      · right; exact_mod_cast h

/-- The attributes of an object whose two cached properties have been computed. -/
def Cached (shape : List Nat) (idx rs : List Nat) (o : Obj R) : Prop :=
  o.t.shape = shape ∧ o.cachedIndices = some idx ∧ o.cachedShape = some rs

omit [AddCommMonoid R] in
theorem cached_step {shape idx rs : List Nat} {o : Obj R} (h : Cached shape idx rs o) (op : Op R) :
    Cached shape idx rs (o.step op) := by
  obtain ⟨h1, h2, h3⟩ := h
  cases op <;> simp [Obj.step, Cached, Obj.reduceIndices, Obj.reducedShape, h1, h2, h3]

omit [AddCommMonoid R] in
theorem cached_steps {shape idx rs : List Nat} {o : Obj R} (h : Cached shape idx rs o) (ops : List (Op R)) :
    Cached shape idx rs (ops.foldl Obj.step o) := by
  induction ops generalizing o with
  | nil => exact h
  | cons op ops ih => exact ih (cached_step h op)

/-- **C130** once `reduce_add` has been called, later assignments to `sizes` have no effect on the grouping: after
any history of assignments, in-place changes of the contents and further calls, `reduce_add` sums the current
entries over the groups given by the sizes at the first call. -/
theorem C130_first_sizes_stay (lead : List Nat) (m : Nat) (rows : List (List R))
    (hwf : (⟨lead ++ [m], rows⟩ : Tens R).WF) (sizes : List Nat) (hne : sizes ≠ []) (hsum : sizes.sum = m)
    (ops : List (Op R))
    (hwf' : ((ops.foldl Obj.step ((Obj.new ⟨lead ++ [m], rows⟩ (sizes.map Int.ofNat)).step .reduce)).t).WF) :
    ∃ o' out, (ops.foldl Obj.step ((Obj.new ⟨lead ++ [m], rows⟩ (sizes.map Int.ofNat)).step .reduce)).reduceAdd =
        .ok (o', out) ∧
      out.t.shape = lead ++ [sizes.length] ∧
      IsGroupSums sizes (ops.foldl Obj.step ((Obj.new ⟨lead ++ [m], rows⟩ (sizes.map Int.ofNat)).step .reduce)).t.rows
        out.t.rows := by
  have hlen : (repI (List.range' 0 sizes.length) sizes).length = m := by
    rw [repI_length _ _ (by simp), hsum]
  have h0 : Cached (lead ++ [m]) (repI (List.range' 0 sizes.length) sizes) (lead ++ [sizes.length])
      ((Obj.new ⟨lead ++ [m], rows⟩ (sizes.map Int.ofNat)).step .reduce) := by
    simp [Cached, Obj.step, Obj.new, Obj.fresh, Obj.reducedShape, Obj.reduceIndices, groupIndices_ok _ hne,
      broadcastRow, hlen, bind, Except.bind, pure, Except.pure]
  have h1 := cached_steps h0 ops
  revert hwf'
  generalize ops.foldl Obj.step ((Obj.new ⟨lead ++ [m], rows⟩ (sizes.map Int.ofNat)).step .reduce) = o at h1 ⊢
  intro hwf'
  obtain ⟨h2, h3, h4⟩ := h1
  have hw := width_of (shape := o.t.shape) (rows := o.t.rows) hwf' h2
  have hs := scatterRows_map sizes.length (repI (List.range' 0 sizes.length) sizes) o.t.rows
    (fun r => (splitInto r sizes).map List.sum) (by
      intro r hr
      have := scatter_groups [] sizes r (by rw [hw r hr, hsum])
      simpa using this)
  refine ⟨o, Obj.fresh ⟨lead ++ [sizes.length], o.t.rows.map fun r => (splitInto r sizes).map List.sum⟩ o.sizes,
    ?_, rfl, ?_⟩
  · simp [Obj.reduceAdd, Obj.reducedShape, Obj.reduceIndices, h3, h4, hs, bind, Except.bind, pure, Except.pure]
  · constructor
    · simp [Obj.fresh]
    · intro b h h'
      simp only [Obj.fresh, List.getElem_map, List.length_map, splitInto_length, true_and]
      intro i hi
      rw [splitInto_getElem]

/-- Sizes changed from (1, 2) to (2, 1) after the first call: the second call still groups by (1, 2). -/
example : ∃ o', (([.setSizes [2, 1], .fill [[10, 20, 30]]] : List (Op Nat)).foldl Obj.step
      ((Obj.new ⟨[3], [[1, 2, 3]]⟩ [1, 2]).step .reduce)).reduceAdd =
    .ok (o', Obj.new ⟨[2], [[10, 50]]⟩ [2, 1]) := ⟨_, rfl⟩

/-- `C129_total`, `C129_accepts`, `C129_one_takes_all`, `C130_carried`, `C130_reduced_keeps_sizes`. -/
example := C129_total (R := Nat) [2] 5 [[1, 2, 3, 4, 5], [10, 20, 30, 40, 50]] ⟨rfl, by decide⟩ [2, 0, 3] (by simp) rfl
example := C129_accepts (R := Nat) ⟨[2, 5], [[1, 2, 3, 4, 5], [10, 20, 30, 40, 50]]⟩ ⟨rfl, by decide⟩ [2, 0, 3]
example := C129_one_takes_all (R := Nat) [2] 5 (by norm_num) [[1, 2, 3, 4, 5], [10, 20, 30, 40, 50]] ⟨rfl, by decide⟩ 1 2
example := C130_carried (R := Nat) (fun ts => .ok (.one (ts.getD 1 ⟨[], []⟩))) [⟨[3], [[7, 8, 9]]⟩] (Obj.new ⟨[3], [[1, 2, 3]]⟩ [1, 2])
  [.plain ⟨[3], [[4, 5, 6]]⟩] ⟨[3], [[1, 2, 3]]⟩ rfl
example := C130_reduced_keeps_sizes (R := Nat) [2] 5 [[1, 2, 3, 4, 5], [10, 20, 30, 40, 50]] ⟨rfl, by decide⟩ [2, 0, 3] (by simp) rfl

end Verif.Ragged.Old
