import Verif.Scope.Lemmas

/-! # Property theorems C08, C09, C66 (namespaces) -/

namespace Verif.Scope

open Verif

variable {V : Type}

/-- **C09.** After any history of registrations (mixed with assignments and deletions) the scope maps
`k` to `v` iff `v` is the last registration of `k` that was not to be ignored. -/
theorem C09_registered_value (ns : PyDict String V) (ops : List (Op V)) (k : String) (v : V) :
    (run (create ns) ops).data.get? k = some v ↔ RegisteredAs (regs ops) k v := by
  rw [(run_fields ops (create ns)).1]
  exact registered_iff _ _ _

/-- **C09 (corollaries).** First wins when every registration ignores existing names; last wins when
none does; an unregistered name is absent. -/
theorem C09_first_last (ns : PyDict String V) (ops : List (Op V)) (k : String)
    (pre post : List (String × V × Bool)) (v : V) (b : Bool) (hr : regs ops = pre ++ (k, v, b) :: post) :
    ((∀ r ∈ regs ops, r.2.2 = true) → (∀ r ∈ pre, r.1 ≠ k) →
      (run (create ns) ops).data.get? k = some v) ∧
    ((∀ r ∈ regs ops, r.2.2 = false) → (∀ r ∈ post, r.1 ≠ k) →
      (run (create ns) ops).data.get? k = some v) := by
  constructor
  · intro hall hpre
    rw [C09_registered_value]
    exact ⟨pre, b, post, hr, fun _ => hpre, fun r h _ => hall r (by rw [hr]; simp [h])⟩
  · intro hall hpost
    rw [C09_registered_value]
    refine ⟨pre, b, post, hr, fun hb => ?_, fun r h hk => absurd hk (hpost r h)⟩
    have := hall (k, v, b) (by rw [hr]; simp)
    simp only at this
    rw [this] at hb; cases hb

/-- Non-vacuity: `g` registered twice; with `ignore` the first stays, without it the last. -/
example : ((run (create [("os", 0)]) [.register "g" 1 false, .assign "x" 5,
      .registerMany [("g", 2), ("kg", 3)] true]).data.get? "g" = some 1) ∧
    ((run (create [("os", 0)]) [.register "g" 1 false, .register "g" 2 false]).data.get? "g" = some 2) := by
  decide

/-- **C08a.** When the scope ends (by `__exit__` or by the finaliser) the namespace holds exactly:
the registered names with their registered values; otherwise nothing for a non-dunder name that was
there when the scope was created (even if reassigned since); otherwise whatever module code left. -/
theorem C08_namespace_after_end (ns : PyDict String V) (ops : List (Op V)) (k : String) :
    let s := run (create ns) ops
    (∀ v, RegisteredAs (regs ops) k v →
      (exit s).ctx.get? k = some v ∧ (finalize s).ctx.get? k = some v) ∧
    ((∀ v, ¬ RegisteredAs (regs ops) k v) → k ∈ ns.keys → k.startsWith "__" = false →
      (exit s).ctx.get? k = none ∧ (finalize s).ctx.get? k = none) ∧
    ((∀ v, ¬ RegisteredAs (regs ops) k v) → (k ∉ ns.keys ∨ k.startsWith "__" = true) →
      (exit s).ctx.get? k = nsAfter (fun k => ns.get? k) ops k ∧
      (finalize s).ctx.get? k = nsAfter (fun k => ns.get? k) ops k) := by
  intro s
  obtain ⟨h1, h2, h3, h4⟩ := run_fields ops (create ns)
  have hnd : s.data.keys.Nodup := by
    change (run (create ns) ops).data.keys.Nodup
    rw [h1]; exact foldl_reg_nodup _ _ (by simp [create, PyDict.keys])
  have hact : s.active = true := h3
  have hexit : (exit s).ctx.get? k = (finalize s).ctx.get? k := rfl
  have hreg := C09_registered_value ns ops k
  have hinit : s.initKeys = ns.keys := h2
  have hns : s.ctx.get? k = nsAfter (fun k => ns.get? k) ops k := h4 k
  rw [hexit, finalize_get? s hnd hact, hinit, hns]
  refine ⟨fun v hv => ?_, fun hv hk hd => ?_, fun hv hk => ?_⟩
  · have : s.data.get? k = some v := (hreg v).mpr hv
    simp [this]
  all_goals
    have hnone : s.data.get? k = none := by
      cases hg : s.data.get? k with
      | none => rfl
      | some v => exact absurd ((hreg v).mp hg) (hv v)
  · have : keyfilter k = true := by simp [keyfilter, hd]
    simp [hnone, hk, this]
  · have : ¬ (k ∈ ns.keys ∧ keyfilter k = true) := by
      rintro ⟨ha, hb⟩
      rcases hk with hk | hk
      · exact hk ha
      · simp [keyfilter, hk] at hb
    simp [hnone, this]

/-- Non-vacuity: `import os; x` existed, `r` registered, `y` assigned afterwards, `__doc__` kept. -/
example : (exit (run (create [("__doc__", 0), ("os", 1), ("x", 2)])
    [.assign "y" 3, .register "r" 4 false, .assign "x" 9])).ctx = [("__doc__", 0), ("y", 3), ("r", 4)] := by
  decide +kernel

/-- **C08b.** Ending twice is the same as ending once: after an explicit exit, whatever is done to the
namespace or the scope later, the finaliser changes nothing. -/
theorem C08_finalizer_after_exit (s : St V) (later : List (Op V)) :
    finalize (run (exit s) later) = run (exit s) later := by
  have : (run (exit s) later).active = false := (run_fields later (exit s)).2.2.1
  simp [finalize, this]

/-- **C08c.** `AllScope.__all__` lists exactly the names present now that were absent at creation. -/
theorem C08_all_names (ns : PyDict String V) (ops : List (Op V)) (k : String) :
    k ∈ allNames ns.keys (run (create ns) ops).ctx ↔
      (nsAfter (fun k => ns.get? k) ops k ≠ none ∧ k ∉ ns.keys) := by
  have h4 := (run_fields ops (create ns)).2.2.2 k
  simp only [allNames, List.mem_filter, decide_eq_true_eq]
  have hk : k ∈ (run (create ns) ops).ctx.keys ↔ nsAfter (fun k => ns.get? k) ops k ≠ none := by
    have hc : (fun k => (create ns).ctx.get? k) = (fun k => ns.get? k) := rfl
    rw [← hc, ← h4, ne_eq, PyDict.get?_eq_none_iff, Classical.not_not]
  rw [hk]

example : allNames ["a"] (run (create [("a", 0)]) [.assign "b" 1, .assign "c" 2, .delete "c"]).ctx = ["b"] := by
  decide

/-- **C66 (negation).** `register` does not always return the scope: with `ignore_if_exists` and an
existing name it returns `None`, so a chained call fails. -/
theorem C66_register_not_fluent :
    ¬ ∀ (s : St Nat) (k : String) (v : Nat) (ign : Bool), (register s k v ign).2 = true := by
  intro h
  have := h (register (create []) "g" 1 false).1 "g" 2 true
  revert this; decide

/-- **C66 (partial).** It returns the scope in every other case. -/
theorem C66_register_fluent_partial (s : St V) (k : String) (v : V) (ign : Bool)
    (h : ign = false ∨ s.data.get? k = none) : (register s k v ign).2 = true := by
  unfold register PyDict.has
  rcases h with h | h <;> simp [h]

end Verif.Scope
