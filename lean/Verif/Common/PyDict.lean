/-! # Python dictionaries as insertion-ordered association lists

Shared by several models.  `set` overwrites in place or appends, `pop` removes, exactly like CPython's
`dict`. -/

namespace Verif

universe u v

/-- A Python `dict`: insertion ordered items. -/
abbrev PyDict (K : Type u) (V : Type v) := List (K × V)

namespace PyDict

variable {K : Type u} {V : Type v} [DecidableEq K]

/-- `d.get(k)`. -/
def get? : PyDict K V → K → Option V
  | [], _ => none
  | (k', v) :: d, k => if k' = k then some v else get? d k

/-- `k in d`. -/
def has (d : PyDict K V) (k : K) : Bool := (d.get? k).isSome

/-- `d[k] = v`. -/
def set : PyDict K V → K → V → PyDict K V
  | [], k, v => [(k, v)]
  | (k', v') :: d, k, v => if k' = k then (k, v) :: d else (k', v') :: set d k v

/-- `d.pop(k, None)`. -/
def pop (d : PyDict K V) (k : K) : PyDict K V := d.filter (fun kv => kv.1 ≠ k)

/-- `d.update(e)`. -/
def update (d e : PyDict K V) : PyDict K V := e.foldl (fun d kv => d.set kv.1 kv.2) d

/-- `d.keys()`. -/
def keys (d : PyDict K V) : List K := d.map Prod.fst

theorem get?_set (d : PyDict K V) (k k' : K) (v : V) :
    (d.set k v).get? k' = if k = k' then some v else d.get? k' := by
  induction d with
  | nil => simp [set, get?]
  | cons x d ih =>
    obtain ⟨a, b⟩ := x
    simp only [set]
    by_cases h : a = k
    · subst h
      simp only [↓reduceIte, get?]
      split <;> rfl
    · simp only [h, ↓reduceIte, get?, ih]
      by_cases h1 : a = k'
      · subst h1
        simp [Ne.symm h]
      · simp [h1]

theorem get?_pop (d : PyDict K V) (k k' : K) :
    (d.pop k).get? k' = if k = k' then none else d.get? k' := by
  induction d with
  | nil => simp [pop, get?]
  | cons x d ih =>
    obtain ⟨a, b⟩ := x
    unfold pop at ih ⊢
    simp only [List.filter_cons]
    by_cases h : a = k
    · subst h
      simp only [ne_eq, not_true_eq_false, decide_false, Bool.false_eq_true, ↓reduceIte, ih, get?]
      split <;> rfl
    · simp only [ne_eq, h, not_false_eq_true, decide_true, ↓reduceIte, get?, ih]
      by_cases h1 : a = k'
      · subst h1; simp [Ne.symm h]
      · simp [h1]

theorem get?_eq_none_iff (d : PyDict K V) (k : K) : d.get? k = none ↔ k ∉ d.keys := by
  induction d with
  | nil => simp [get?, keys]
  | cons x d ih =>
    obtain ⟨a, b⟩ := x
    simp only [get?, keys, List.map_cons, List.mem_cons, not_or] at ih ⊢
    by_cases h : a = k
    · subst h; simp
    · simp only [h, ↓reduceIte, ih]
      constructor
      · intro hh; exact ⟨Ne.symm h, hh⟩
      · intro hh; exact hh.2

theorem has_iff (d : PyDict K V) (k : K) : d.has k = true ↔ k ∈ d.keys := by
  unfold has
  rw [Option.isSome_iff_ne_none, ne_eq, get?_eq_none_iff]
  simp

theorem keys_cons (a : K) (b : V) (d : PyDict K V) : keys ((a, b) :: d) = a :: keys d := rfl

theorem keys_set (d : PyDict K V) (k : K) (v : V) :
    (d.set k v).keys = if k ∈ d.keys then d.keys else d.keys ++ [k] := by
  induction d with
  | nil => simp [set, keys]
  | cons x d ih =>
    obtain ⟨a, b⟩ := x
    simp only [set, keys_cons, List.mem_cons]
    by_cases h : a = k
    · subst h; simp [keys_cons]
    · simp only [h, ↓reduceIte, keys_cons, ih, Ne.symm h, false_or]
      by_cases hk : k ∈ keys d
      · rw [if_pos hk, if_pos hk]
      · rw [if_neg hk, if_neg hk]; rfl

theorem nodup_set (d : PyDict K V) (k : K) (v : V) (h : d.keys.Nodup) : (d.set k v).keys.Nodup := by
  rw [keys_set]
  split
  · exact h
  · rename_i hk
    rw [List.nodup_append]
    refine ⟨h, by simp, ?_⟩
    intro a ha b hb hab
    simp only [List.mem_singleton] at hb
    subst hb; subst hab; exact hk ha

theorem nodup_pop (d : PyDict K V) (k : K) (h : d.keys.Nodup) : (d.pop k).keys.Nodup := by
  unfold pop keys
  exact h.sublist (List.filter_sublist.map _)

/-- The last binding of a key in a list of pairs. -/
def lastVal (l : List (K × V)) (k : K) : Option V := get? l.reverse k

theorem get?_append (d e : PyDict K V) (k : K) :
    get? (d ++ e) k = (get? d k).or (get? e k) := by
  induction d with
  | nil => simp [get?]
  | cons x d ih =>
    obtain ⟨a, b⟩ := x
    simp only [List.cons_append, get?]
    split
    · simp
    · exact ih

theorem get?_update (e : PyDict K V) : ∀ (d : PyDict K V) (k : K),
    (d.update e).get? k = (lastVal e k).or (d.get? k) := by
  induction e with
  | nil => intro d k; simp [update, lastVal, get?]
  | cons x e ih =>
    intro d k
    obtain ⟨a, b⟩ := x
    have : (d.update ((a, b) :: e)) = (d.set a b).update e := rfl
    rw [this, ih, get?_set]
    simp only [lastVal, List.reverse_cons, get?_append, get?]
    split <;> simp [Option.or_assoc]

theorem lastVal_of_nodup (e : PyDict K V) (h : e.keys.Nodup) (k : K) : lastVal e k = e.get? k := by
  induction e with
  | nil => rfl
  | cons x e ih =>
    obtain ⟨a, b⟩ := x
    simp only [keys, List.map_cons, List.nodup_cons] at h
    have ih' := ih h.2
    unfold lastVal at ih' ⊢
    rw [List.reverse_cons, get?_append, ih']
    simp only [get?]
    by_cases hk : a = k
    · subst hk
      have : get? e a = none := (get?_eq_none_iff e a).mpr h.1
      simp [this]
    · simp [hk]

theorem mem_of_get? {d : PyDict K V} {k : K} {v : V} (h : d.get? k = some v) : (k, v) ∈ d := by
  induction d with
  | nil => simp [get?] at h
  | cons x d ih =>
    obtain ⟨a, b⟩ := x
    simp only [get?] at h
    split at h
    · rename_i hk; subst hk; simp only [Option.some.injEq] at h; subst h; simp
    · exact List.mem_cons_of_mem _ (ih h)

theorem get?_of_mem {d : PyDict K V} (hd : d.keys.Nodup) {k : K} {v : V} (h : (k, v) ∈ d) :
    d.get? k = some v := by
  induction d with
  | nil => simp at h
  | cons x d ih =>
    obtain ⟨a, b⟩ := x
    simp only [keys, List.map_cons, List.nodup_cons] at hd
    simp only [get?]
    rcases List.mem_cons.mp h with h | h
    · simp only [Prod.mk.injEq] at h; obtain ⟨rfl, rfl⟩ := h; simp
    · have : a ≠ k := by
        rintro rfl
        exact hd.1 (List.mem_map_of_mem (f := Prod.fst) h)
      simp [this, ih hd.2 h]

end PyDict
end Verif
