import Verif.Scope.Spec
import Mathlib.Tactic.ByContra
import Mathlib.Logic.Basic

namespace Verif.Scope

open Verif

variable {V : Type}

/-- One registration on the data dictionary. -/
def regStep (d : PyDict String V) (r : String × V × Bool) : PyDict String V :=
  if d.has r.1 && r.2.2 then d else d.set r.1 r.2.1

theorem register_data (s : St V) (k : String) (v : V) (ign : Bool) :
    (register s k v ign).1 = { s with data := regStep s.data (k, v, ign) } := by
  unfold register regStep
  split <;> simp_all

theorem registerMany_data (kvs : List (String × V)) (ign : Bool) : ∀ s : St V,
    registerMany s kvs ign =
      { s with data := (kvs.map (fun kv => (kv.1, kv.2, ign))).foldl regStep s.data } := by
  induction kvs with
  | nil => intro s; rfl
  | cons x xs ih =>
    intro s
    have : registerMany s (x :: xs) ign = registerMany (register s x.1 x.2 ign).1 xs ign := rfl
    rw [this, ih, register_data]
    rfl

theorem run_fields (ops : List (Op V)) : ∀ s : St V,
    (run s ops).data = (regs ops).foldl regStep s.data ∧
    (run s ops).initKeys = s.initKeys ∧ (run s ops).active = s.active ∧
    ∀ k, (run s ops).ctx.get? k = nsAfter (fun k => s.ctx.get? k) ops k := by
  induction ops with
  | nil => intro s; simp [run, regs, nsAfter]
  | cons o ops ih =>
    intro s
    have hr : run s (o :: ops) = run (step s o) ops := rfl
    rw [hr]
    obtain ⟨h1, h2, h3, h4⟩ := ih (step s o)
    rw [h1, h2, h3]
    cases o with
    | assign k v =>
      refine ⟨rfl, rfl, rfl, fun k' => ?_⟩
      rw [h4]
      simp only [step, nsAfter, PyDict.get?_set]
    | delete k =>
      refine ⟨rfl, rfl, rfl, fun k' => ?_⟩
      rw [h4]
      simp only [step, nsAfter, PyDict.get?_pop]
    | register k v ign =>
      have hs : step s (.register k v ign) = { s with data := regStep s.data (k, v, ign) } :=
        register_data s k v ign
      rw [hs] at h4 ⊢
      exact ⟨rfl, rfl, rfl, fun k' => by rw [h4]; rfl⟩
    | registerMany kvs ign =>
      have hs : step s (.registerMany kvs ign) = _ := registerMany_data kvs ign s
      rw [hs] at h4 ⊢
      exact ⟨by simp [regs, List.foldl_append], rfl, rfl, fun k' => by rw [h4]; rfl⟩

theorem foldl_reg_nodup (rs : List (String × V × Bool)) : ∀ d : PyDict String V, d.keys.Nodup →
    (rs.foldl regStep d).keys.Nodup := by
  induction rs with
  | nil => intro d h; exact h
  | cons r rs ih =>
    intro d h
    refine ih _ ?_
    unfold regStep
    split
    · exact h
    · exact PyDict.nodup_set _ _ _ h

theorem foldl_reg_snoc (rs : List (String × V × Bool)) (r) (d : PyDict String V) :
    (rs ++ [r]).foldl regStep d = regStep (rs.foldl regStep d) r := by simp

theorem get?_regStep (d : PyDict String V) (r : String × V × Bool) (k : String) :
    (regStep d r).get? k =
      if r.1 = k ∧ ¬ ((d.get? k).isSome ∧ r.2.2 = true) then some r.2.1 else d.get? k := by
  unfold regStep PyDict.has
  by_cases hk : r.1 = k
  · subst hk
    by_cases h : (d.get? r.1).isSome = true ∧ r.2.2 = true
    · simp [h.1, h.2]
    · have : ((d.get? r.1).isSome && r.2.2) = false := by
        rw [Bool.eq_false_iff]; simpa using h
      rw [this]
      simp only [Bool.false_eq_true, ↓reduceIte, PyDict.get?_set, true_and]
      rw [if_pos h]
  · by_cases h : ((d.get? r.1).isSome && r.2.2) = true
    · simp [h, hk]
    · simp [h, hk, PyDict.get?_set]

/-- Data after registrations from the empty dictionary. -/
theorem registered_iff (rs : List (String × V × Bool)) (k : String) : ∀ v,
    (rs.foldl regStep []).get? k = some v ↔ RegisteredAs rs k v := by
  -- induct from the right
  suffices H : ∀ (n : Nat) (rs : List (String × V × Bool)), rs.length = n →
      (∀ v, (rs.foldl regStep []).get? k = some v ↔ RegisteredAs rs k v) ∧
      ((rs.foldl regStep []).get? k = none ↔ ∀ r ∈ rs, r.1 ≠ k) from (H _ rs rfl).1
  intro n
  induction n with
  | zero =>
    intro rs h
    have : rs = [] := List.length_eq_zero_iff.mp h
    subst this
    simp [PyDict.get?, RegisteredAs]
  | succ n ih =>
    intro rs h
    obtain ⟨init, r, rfl⟩ : ∃ init r, rs = init ++ [r] := by
      rcases List.eq_nil_or_concat rs with h0 | ⟨a, b, h0⟩
      · subst h0; simp at h
      · exact ⟨a, b, by simpa using h0⟩
    have hl : init.length = n := by simpa using h
    obtain ⟨ih1, ih2⟩ := ih init hl
    rw [foldl_reg_snoc]
    simp only [get?_regStep]
    obtain ⟨a, w, ign⟩ := r
    constructor
    · intro v
      by_cases hc : a = k ∧ ¬ (((init.foldl regStep []).get? k).isSome = true ∧ ign = true)
      · rw [if_pos hc]
        obtain ⟨rfl, hc⟩ := hc
        simp only [Option.some.injEq]
        constructor
        · rintro rfl
          refine ⟨init, ign, [], rfl, ?_, by simp⟩
          intro hi
          rw [← ih2]
          by_contra hne
          exact hc ⟨Option.isSome_iff_ne_none.mpr hne, hi⟩
        · rintro ⟨pre, ign', post, heq, h1, h2⟩
          rcases List.eq_nil_or_concat post with hp | ⟨p, q, hp⟩
          · subst hp
            have := List.append_inj' heq rfl
            simp at this
            exact this.2.1
          · rw [List.concat_eq_append] at hp
            subst hp
            have heq' : init ++ [(a, w, ign)] = (pre ++ (a, v, ign') :: p) ++ [q] := by simpa using heq
            have hq := List.append_inj' heq' rfl
            simp only [List.cons.injEq, and_true] at hq
            obtain ⟨hi, rfl⟩ := hq
            exfalso
            refine hc ⟨?_, h2 (a, w, ign) (by simp) rfl⟩
            rw [Option.isSome_iff_ne_none]
            intro hn
            exact (ih2.mp hn) (a, v, ign') (by rw [hi]; simp) rfl
      · rw [if_neg hc, ih1]
        constructor
        · rintro ⟨pre, ign', post, heq, h1, h2⟩
          refine ⟨pre, ign', post ++ [(a, w, ign)], by simp [heq], h1, ?_⟩
          intro r hr hrk
          rcases List.mem_append.mp hr with hr | hr
          · exact h2 r hr hrk
          · simp only [List.mem_singleton] at hr
            subst hr
            simp only at hrk ⊢
            subst hrk
            by_contra hi
            exact hc ⟨rfl, fun hh => hi hh.2⟩
        · rintro ⟨pre, ign', post, heq, h1, h2⟩
          rcases List.eq_nil_or_concat post with hp | ⟨p, q, hp⟩
          · subst hp
            have := List.append_inj' heq rfl
            simp only [List.cons.injEq, Prod.mk.injEq, and_true] at this
            obtain ⟨rfl, rfl, rfl, rfl⟩ := this
            exfalso
            apply hc
            refine ⟨rfl, ?_⟩
            rintro ⟨hs, hi⟩
            rw [Option.isSome_iff_ne_none] at hs
            exact hs (ih2.mpr (h1 hi))
          · rw [List.concat_eq_append] at hp
            subst hp
            have heq' : init ++ [(a, w, ign)] = (pre ++ (k, v, ign') :: p) ++ [q] := by simpa using heq
            have hq := List.append_inj' heq' rfl
            exact ⟨pre, ign', p, hq.1, h1, fun r hr => h2 r (by simp [hr])⟩
    · by_cases hc : a = k ∧ ¬ (((init.foldl regStep []).get? k).isSome = true ∧ ign = true)
      · rw [if_pos hc]
        simp only [reduceCtorEq, List.mem_append, List.mem_singleton, false_iff, not_forall]
        exact ⟨(a, w, ign), Or.inr rfl, by simpa using hc.1⟩
      · rw [if_neg hc, ih2]
        constructor
        · intro h r hr
          rcases List.mem_append.mp hr with hr | hr
          · exact h r hr
          · simp only [List.mem_singleton] at hr
            subst hr
            rintro rfl
            apply hc
            refine ⟨rfl, fun hh => ?_⟩
            have := hh.1
            rw [Option.isSome_iff_ne_none] at this
            exact this (ih2.mpr h)
        · intro h r hr; exact h r (by simp [hr])

theorem get?_foldl_pop (ks : List String) : ∀ (c : PyDict String V) (k : String),
    (ks.foldl (fun c k => c.pop k) c).get? k = if k ∈ ks then none else c.get? k := by
  induction ks with
  | nil => intro c k; simp
  | cons x xs ih =>
    intro c k
    simp only [List.foldl_cons, ih, PyDict.get?_pop, List.mem_cons]
    by_cases h1 : x = k
    · subst h1; simp
    · simp [h1, Ne.symm h1]

theorem finalize_get? (s : St V) (hd : s.data.keys.Nodup) (h : s.active = true) (k : String) :
    (finalize s).ctx.get? k = (s.data.get? k).or
      (if k ∈ s.initKeys ∧ keyfilter k = true then none else s.ctx.get? k) := by
  simp only [finalize, h, ↓reduceIte, del_, PyDict.get?_update, PyDict.lastVal_of_nodup _ hd,
    get?_foldl_pop, List.mem_filter]

end Verif.Scope
