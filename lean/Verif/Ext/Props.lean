import Verif.Ext.Model

/-! # C125: the extensions as attributes -/

namespace Verif.Ext

theorem set_same (f : String → Option Obj) (n : String) (o : Obj) : set f n o n = some o := by simp [set]
theorem set_other {f : String → Option Obj} {n m : String} (o : Obj) (h : m ≠ n) : set f n o m = f m := by simp [set, h]

/-- What holds in every state: attributes and `sys.modules` agree for compiled extensions, others are not in `sys.modules`, and an attribute is one of the two kinds. -/
structure Inv (d : Disk) (s : St) : Prop where
  agree : ∀ n, d.compiled n = true → s.attr n = s.full n
  absent : ∀ n, d.compiled n = false → s.full n = none
  kind : ∀ n o, s.attr n = some o → o.name = n ∧ o.kind = if d.compiled n then .compiled else .dummy
  stub : ∀ n o, s.attr n = some o → d.compiled n = true ∨ d.stub n = true

theorem inv_init (d : Disk) : Inv d .init := by
  constructor <;> simp [St.init]

theorem inv_importFull {d : Disk} {s : St} (h : Inv d s) (n : String) : Inv d (importFull d n s).2 := by
  unfold importFull
  cases hf : s.full n with
  | some o => exact h
  | none =>
    by_cases hc : d.compiled n = true
    · simp only [hc, if_true]
      refine ⟨fun m hm => ?_, fun m hm => ?_, fun m o hm => ?_, fun m o hm => ?_⟩
      · by_cases e : m = n
        · subst e; simp [set_same]
        · simpa [set_other _ e] using h.agree m hm
      · by_cases e : m = n
        · subst e; rw [hc] at hm; simp at hm
        · simpa [set_other _ e] using h.absent m hm
      · by_cases e : m = n
        · subst e; simp only [set_same, Option.some.injEq] at hm; subst hm; simp [hc]
        · exact h.kind m o (by simpa [set_other _ e] using hm)
      · by_cases e : m = n
        · subst e; exact .inl hc
        · exact h.stub m o (by simpa [set_other _ e] using hm)
    · simp only [hc]; exact h

theorem inv_importTop {d : Disk} {s : St} (h : Inv d s) (n : String) : Inv d (importTop d n s).2 := by
  unfold importTop
  cases s.bare n with
  | some o => exact h
  | none =>
    by_cases hc : d.toplevel n = true
    · simp only [hc, if_true]; exact ⟨h.agree, h.absent, h.kind, h.stub⟩
    · simp only [hc]; exact h

/-- The four cases of an access. -/
theorem access_cases {d : Disk} {s : St} (h : Inv d s) (n : String) :
    (∃ o, s.attr n = some o ∧ access d n s = (.ok o, s)) ∨
    (s.attr n = none ∧ d.compiled n = true ∧ access d n s = (.ok ⟨.compiled, n, s.next⟩,
      register n ⟨.compiled, n, s.next⟩ { s with full := set s.full n ⟨.compiled, n, s.next⟩, attr := set s.attr n ⟨.compiled, n, s.next⟩, next := s.next + 1 })) ∨
    (s.attr n = none ∧ d.compiled n = false ∧ d.stub n = true ∧
      access d n s = (.ok ⟨.dummy, n, s.next⟩, register n ⟨.dummy, n, s.next⟩ { s with next := s.next + 1 })) ∨
    (s.attr n = none ∧ d.compiled n = false ∧ d.stub n = false ∧ access d n s = (.error .attributeError, s)) := by
  cases ha : s.attr n with
  | some o => exact .inl ⟨o, rfl, by simp [access, ha]⟩
  | none =>
    right
    cases hc : d.compiled n with
    | true =>
      have hf : s.full n = none := by rw [← h.agree n hc, ha]
      left
      refine ⟨rfl, rfl, ?_⟩
      simp [access, ha, getattr, importFull, hf, hc]
    | false =>
      have hf := h.absent n hc
      cases hs : d.stub n with
      | true => exact .inr (.inl ⟨rfl, rfl, rfl, by simp [access, ha, getattr, importFull, hf, hc, hs]⟩)
      | false => exact .inr (.inr ⟨rfl, rfl, rfl, by simp [access, ha, getattr, importFull, hf, hc, hs]⟩)

theorem inv_access {d : Disk} {s : St} (h : Inv d s) (n : String) : Inv d (access d n s).2 := by
  rcases access_cases h n with ⟨o, _, e⟩ | ⟨_, hc, e⟩ | ⟨_, hc, hs, e⟩ | ⟨_, _, _, e⟩ <;> rw [e]
  · exact h
  · refine ⟨fun m hm => ?_, fun m hm => ?_, fun m o hm => ?_, fun m o hm => ?_⟩ <;> by_cases e : m = n
    · subst e; simp [register, set_same]
    · simpa [register, set_other _ e] using h.agree m hm
    · subst e; rw [hc] at hm; simp at hm
    · simpa [register, set_other _ e] using h.absent m hm
    · subst e; simp only [register, set_same, Option.some.injEq] at hm; subst hm; simp [hc]
    · exact h.kind m o (by simpa [register, set_other _ e] using hm)
    · subst e; exact .inl hc
    · exact h.stub m o (by simpa [register, set_other _ e] using hm)
  · refine ⟨fun m hm => ?_, fun m hm => ?_, fun m o hm => ?_, fun m o hm => ?_⟩ <;> by_cases e : m = n
    · subst e; rw [hc] at hm; simp at hm
    · simpa [register, set_other _ e] using h.agree m hm
    · simpa [register] using h.absent m hm
    · simpa [register] using h.absent m hm
    · subst e; simp only [register, set_same, Option.some.injEq] at hm; subst hm; simp [hc]
    · exact h.kind m o (by simpa [register, set_other _ e] using hm)
    · subst e; exact .inr hs
    · exact h.stub m o (by simpa [register, set_other _ e] using hm)
  · exact h

theorem inv_run {d : Disk} {s : St} (h : Inv d s) (op : Op) : Inv d (op.run d s).2 := by
  cases op with
  | access n => exact inv_access h n
  | importFull n => exact inv_importFull h n
  | importTop n => exact inv_importTop h n

theorem inv_exec {d : Disk} (p : List Op) : ∀ {s : St}, Inv d s → Inv d (exec d p s) := by
  induction p with
  | nil => exact fun h => h
  | cons op p ih => exact fun h => ih (inv_run h op)

/-- An attribute, once set, stays. -/
theorem attr_run {d : Disk} {s : St} (h : Inv d s) (op : Op) {n : String} {o : Obj} (ha : s.attr n = some o) :
    (op.run d s).2.attr n = some o := by
  cases op with
  | access m =>
    simp only [Op.run]
    rcases access_cases h m with ⟨_, _, e⟩ | ⟨hn, _, e⟩ | ⟨hn, _, _, e⟩ | ⟨_, _, _, e⟩ <;> rw [e]
    · exact ha
    · have : n ≠ m := fun e => by subst e; rw [ha] at hn; simp at hn
      simpa [register, set_other _ this] using ha
    · have : n ≠ m := fun e => by subst e; rw [ha] at hn; simp at hn
      simpa [register, set_other _ this] using ha
    · exact ha
  | importFull m =>
    simp only [Op.run, importFull]
    cases hf : s.full m with
    | some _ => exact ha
    | none =>
      by_cases hc : d.compiled m = true
      · have : n ≠ m := fun e => by subst e; rw [h.agree n hc, hf] at ha; simp at ha
        simpa [hc, set_other _ this] using ha
      · simpa [hc] using ha
  | importTop m =>
    simp only [Op.run, importTop]
    cases s.bare m with
    | some _ => exact ha
    | none => by_cases hc : d.toplevel m = true <;> simpa [hc] using ha

theorem attr_exec {d : Disk} (p : List Op) : ∀ {s : St}, Inv d s → ∀ {n : String} {o : Obj}, s.attr n = some o → (exec d p s).attr n = some o := by
  induction p with
  | nil => exact fun _ _ _ h => h
  | cons op p ih => exact fun h _ _ ha => ih (inv_run h op) (attr_run h op ha)

theorem access_attr {d : Disk} {s : St} (h : Inv d s) {n : String} {o : Obj} (e : (access d n s).1 = .ok o) : (access d n s).2.attr n = some o := by
  rcases access_cases h n with ⟨o', ha, e'⟩ | ⟨_, _, e'⟩ | ⟨_, _, _, e'⟩ | ⟨_, _, _, e'⟩ <;> rw [e'] at e ⊢ <;>
    simp_all [register, set_same]

theorem access_of_attr {d : Disk} {s : St} {n : String} {o : Obj} (h : s.attr n = some o) : access d n s = (.ok o, s) := by
  simp [access, h]

/-! ## The claims

`p` and `q` are arbitrary programs: any accesses and imports, in any order. -/

/-- `phytorch.extensions.n` is the compiled extension if there is one, otherwise the dummy of its stub, otherwise an `AttributeError` that changes nothing. -/
theorem C125_access (d : Disk) (p : List Op) (n : String) :
    let s := exec d p .init
    (d.compiled n = true → ∃ i, (access d n s).1 = .ok ⟨.compiled, n, i⟩) ∧
    (d.compiled n = false → d.stub n = true → ∃ i, (access d n s).1 = .ok ⟨.dummy, n, i⟩) ∧
    (d.compiled n = false → d.stub n = false → access d n s = (.error .attributeError, s)) := by
  intro s
  have h : Inv d s := inv_exec p (inv_init d)
  rcases access_cases h n with ⟨⟨k, m, i⟩, ha, e⟩ | ⟨_, hc, e⟩ | ⟨_, hc, hs, e⟩ | ⟨_, hc, hs, e⟩ <;> rw [e]
  · have hk := h.kind n _ ha
    have hst := h.stub n _ ha
    refine ⟨fun hc => ⟨i, ?_⟩, fun hc hs => ⟨i, ?_⟩, fun hc hs => ?_⟩
    · simp only [hc, if_true] at hk; simp [hk.1, hk.2]
    · simp [hc] at hk; simp [hk.1, hk.2]
    · simp [hc, hs] at hst
  · simp [hc]
  · simp [hc, hs]
  · simp [hc, hs]

/-- The same object every time, whatever happens in between. -/
theorem C125_same_object (d : Disk) (p q : List Op) (n : String) (o : Obj)
    (e : (access d n (exec d p .init)).1 = .ok o) : (access d n (exec d q (access d n (exec d p .init)).2)).1 = .ok o := by
  have h : Inv d (exec d p .init) := inv_exec p (inv_init d)
  have ha := attr_exec q (inv_access h n) (access_attr h e)
  rw [access_of_attr ha]

/-- A compiled extension is the same object as attribute and by `import phytorch.extensions.n`, in whichever order. -/
theorem C125_import_same (d : Disk) (p q : List Op) (n : String) (hc : d.compiled n = true) (o : Obj) :
    ((access d n (exec d p .init)).1 = .ok o → (importFull d n (exec d q (access d n (exec d p .init)).2)).1 = .ok o) ∧
    ((importFull d n (exec d p .init)).1 = .ok o → (access d n (exec d q (importFull d n (exec d p .init)).2)).1 = .ok o) := by
  have h : Inv d (exec d p .init) := inv_exec p (inv_init d)
  constructor
  · intro e
    have ha := attr_exec q (inv_access h n) (access_attr h e)
    rw [(inv_exec q (inv_access h n)).agree n hc] at ha
    simp [importFull, ha]
  · intro e
    have hi := inv_importFull h n
    have ha : (importFull d n (exec d p .init)).2.attr n = some o := by
      rw [hi.agree n hc]
      unfold importFull at e ⊢
      cases hf : (exec d p .init).full n with
      | some o' => simp only [hf] at e ⊢; simpa using e
      | none => simp only [hf, hc, if_true] at e ⊢; simpa [set_same] using e
    have := attr_exec q hi ha
    rw [access_of_attr this]

/-- A dummy cannot be imported by its name, before or after it has been loaded as an attribute. -/
theorem C125_dummy_not_importable (d : Disk) (p : List Op) (n : String) (hc : d.compiled n = false) :
    (importFull d n (exec d p .init)).1 = .error .importError := by
  have h : Inv d (exec d p .init) := inv_exec p (inv_init d)
  simp [importFull, h.absent n hc, hc]

/-- An access touches only the entries of the extension `n` itself, and `sys.modules[n]`. -/
theorem C125_others_partial (d : Disk) (p : List Op) (n m : String) (hm : m ≠ n) :
    let s := exec d p .init
    (access d n s).2.full m = s.full m ∧ (access d n s).2.bare m = s.bare m ∧ (access d n s).2.attr m = s.attr m := by
  intro s
  have h : Inv d s := inv_exec p (inv_init d)
  rcases access_cases h n with ⟨o', _, e'⟩ | ⟨_, _, e'⟩ | ⟨_, _, _, e'⟩ | ⟨_, _, _, e'⟩ <;> rw [e'] <;> simp [register, set_other _ hm]

/-- The first access of an extension replaces every module of the same name at top level: `import n` then gives the extension. -/
theorem C125_overwrites (d : Disk) (p : List Op) (n : String) (o : Obj) (hn : (exec d p .init).attr n = none)
    (e : (access d n (exec d p .init)).1 = .ok o) :
    (importTop d n (access d n (exec d p .init)).2).1 = .ok o ∧ o.kind ≠ .toplevel := by
  have h : Inv d (exec d p .init) := inv_exec p (inv_init d)
  rcases access_cases h n with ⟨_, ha, _⟩ | ⟨_, _, e'⟩ | ⟨_, _, _, e'⟩ | ⟨_, _, _, e'⟩
  · rw [hn] at ha; simp at ha
  all_goals
    rw [e'] at e ⊢
    simp at e
    try subst e
    try simp [importTop, register, set_same]

/-- So accesses are not invisible to the rest of a program: a top level module `special`, imported before, is another one afterwards. -/
theorem C125_false : ¬ ∀ (d : Disk) (p : List Op) (n m : String) (o : Obj),
    (importTop d m (exec d p .init)).1 = .ok o → (importTop d m (access d n (exec d (p ++ [.importTop m]) .init)).2).1 = .ok o := by
  intro h
  have := h ⟨fun _ => true, fun _ => true, fun _ => true⟩ [] "special" "special" ⟨.toplevel, "special", 0⟩ (by simp [importTop, exec, St.init])
  simp [importTop, exec, St.init, access, getattr, importFull, Op.run, set, register] at this

/-! ### Examples: the repository has stubs for `special`, `roots` and `elliptic`. -/

/-- Only `roots` compiled. -/
def disk : Disk := ⟨fun n => n == "roots", fun n => n == "special" || n == "roots" || n == "elliptic", fun n => n == "special"⟩

example : (access disk "special" (exec disk [.importTop "special", .access "roots"] .init)).1 = .ok ⟨.dummy, "special", 2⟩ := by
  simp [access, exec, Op.run, importTop, getattr, importFull, register, set, disk, St.init]
example : (access disk "gamma" (exec disk [.access "roots"] .init)).1 = .error .attributeError := by
  simp [access, exec, Op.run, getattr, importFull, register, set, disk, St.init]

/-- `C125_access`, `C125_import_same` (`roots` is compiled), `C125_dummy_not_importable` (`special` is not), `C125_others_partial`,
`C125_overwrites`. -/
example := (C125_access disk [.importTop "special"] "roots").1 rfl
example := (C125_access disk [.importTop "special"] "elliptic").2.1 rfl rfl
example := (C125_access disk [.importTop "special"] "gamma").2.2 rfl rfl
example := C125_import_same disk [.importTop "special"] [.access "special"] "roots" rfl ⟨.compiled, "roots", 1⟩
example := C125_dummy_not_importable disk [.access "special"] "special" rfl
example := C125_others_partial disk [.importTop "special"] "roots" "special" (by simp)
example := C125_overwrites disk [.importTop "special"] "special" ⟨.dummy, "special", 1⟩
  (by simp [exec, Op.run, importTop, register, set, disk, St.init])
  (by simp [access, exec, Op.run, importTop, getattr, importFull, register, set, disk, St.init])

end Verif.Ext
