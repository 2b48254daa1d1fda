import Verif.Quant.Spec
import Verif.Units.Props

/-! # Lemmas for quantities -/

namespace Verif.Quant

open Verif.Units (SetOrder dictEq)

variable {V : Type} [Ring V] [Algebra ℝ V]

theorem get?_set' (d : Ctx) (k k' : String) (v : Units.Unit) :
    PyDict.get? (PyDict.set d k v) k' = if k = k' then some v else PyDict.get? d k' := PyDict.get?_set d k k' v

/-- `ctx'` keeps every binding of `ctx`. -/
def Ext (ctx ctx' : Ctx) : Prop := ∀ s u, PyDict.get? ctx s = some u → PyDict.get? ctx' s = some u

/-- All units in the context have positive values. -/
def CtxPos (ctx : Ctx) : Prop := ∀ s u, PyDict.get? ctx s = some u → 0 < u.value

/-- The assignment of scales read off a context. -/
noncomputable def rho (ctx : Ctx) (s : String) : ℝ := ((PyDict.get? ctx s).map Units.Unit.value).getD 1

theorem rho_pos {ctx : Ctx} (h : CtxPos ctx) (s : String) : 0 < rho ctx s := by
  unfold rho
  cases hs : PyDict.get? ctx s with
  | none => simp
  | some u => simpa using h s u hs

theorem rho_some {ctx : Ctx} {s u} (h : PyDict.get? ctx s = some u) : rho ctx s = u.value := by
  simp [rho, h]

theorem Ext.refl (ctx : Ctx) : Ext ctx ctx := fun _ _ h => h
theorem Ext.trans {a b c : Ctx} (h : Ext a b) (h' : Ext b c) : Ext a c := fun s u hs => h' s u (h s u hs)

theorem except_bind_ok {ε α β : Type} {x : Except ε α} {f : α → Except ε β} {b : β} :
    (x >>= f) = .ok b ↔ ∃ a, x = .ok a ∧ f a = .ok b := by
  cases x <;> simp [bind, Except.bind]

theorem liftErr_ok {α : Type} {x : Except Units.Err α} {a : α} : liftErr x = .ok a ↔ x = .ok a := by
  cases x with
  | ok y => simp [liftErr]
  | error e => cases e <;> simp [liftErr]

theorem pow_value {u w : Units.Unit} {p : ℚ} (hu : 0 < u.value) (h : u.pow p = .ok w) :
    w.value = u.value ^ (p : ℝ) := by
  unfold Units.Unit.pow Units.pyPow at h
  rw [if_neg (by rintro ⟨h, -⟩; exact hu.ne' h), if_neg (by rintro ⟨h, -⟩; exact absurd h (not_lt.mpr hu.le))] at h
  simp only [bind, Except.bind, pure, Except.pure, Except.ok.injEq] at h
  rw [← h]

theorem div_value {σ} {u v w : Units.Unit} (hv : 0 < v.value) (h : u.div σ v = .ok w) :
    w.value = u.value / v.value := by
  unfold Units.Unit.div at h
  rw [except_bind_ok] at h
  obtain ⟨a, h1, h2⟩ := h
  simp only [pure, Except.pure, Except.ok.injEq] at h2
  rw [← h2]
  have := pow_value hv h1
  simp only [Units.Unit.mul, this]
  push_cast
  rw [Real.rpow_neg_one]; rfl

theorem inv_value {u w : Units.Unit} (h : u.inv = .ok w) : w.value = (u.value)⁻¹ := by
  unfold Units.Unit.inv at h
  split at h <;> simp only [Except.ok.injEq, reduceCtorEq] at h
  rw [← h]; simp

theorem UE.val_pos (e : UE) {ρ : String → ℝ} (h : ∀ s, 0 < ρ s) : 0 < e.val ρ := by
  induction e with
  | var s => exact h s
  | mul a b ha hb => exact mul_pos ha hb
  | div a b ha hb => exact div_pos ha hb
  | pow a p ha => exact Real.rpow_pos_of_pos ha _
  | inv a ha => exact inv_pos.mpr ha

theorem UE.eval_value {σ} {ctx ctx' : Ctx} (hp : CtxPos ctx') (hx : Ext ctx ctx') (e : UE)
    {u : Units.Unit} (h : e.eval σ ctx = .ok u) : u.value = e.val (rho ctx') := by
  induction e generalizing u with
  | var s =>
    simp only [UE.eval] at h
    split at h <;> simp only [Except.ok.injEq, reduceCtorEq] at h
    rename_i w hw
    rw [← h]
    exact (rho_some (hx s w hw)).symm
  | mul a b ha hb =>
    simp only [UE.eval, except_bind_ok] at h
    obtain ⟨x, h1, y, h2, h3⟩ := h
    simp only [pure, Except.pure, Except.ok.injEq] at h3
    rw [← h3]
    simp [Units.Unit.mul, UE.val, ha h1, hb h2]
  | div a b ha hb =>
    simp only [UE.eval, except_bind_ok] at h
    obtain ⟨x, h1, y, h2, h3⟩ := h
    rw [liftErr_ok] at h3
    have hy : 0 < y.value := by rw [hb h2]; exact UE.val_pos b (rho_pos hp)
    rw [div_value hy h3, ha h1, hb h2]; rfl
  | pow a p ha =>
    simp only [UE.eval, except_bind_ok] at h
    obtain ⟨x, h1, h3⟩ := h
    rw [liftErr_ok] at h3
    have hy : 0 < x.value := by rw [ha h1]; exact UE.val_pos a (rho_pos hp)
    rw [pow_value hy h3, ha h1]; rfl
  | inv a ha =>
    simp only [UE.eval, except_bind_ok] at h
    obtain ⟨x, h1, h3⟩ := h
    rw [liftErr_ok] at h3
    rw [inv_value h3, ha h1]; rfl

theorem to_value {u w : Units.Unit} {f : ℝ} (h : u.to w = .ok f) : f = u.value / w.value ∧ w.value ≠ 0 := by
  unfold Units.Unit.to at h
  split at h
  · simp at h
  split at h
  · simp at h
  rename_i h2
  simp only [Except.ok.injEq] at h
  exact ⟨h.symm, h2⟩

/-- Conversion keeps what is measured. -/
theorem convert_si {w : Units.Unit} {a a' : Leaf V} {x : Option V}
    (h : convert w a = .ok a') (hr : a'.raw = .ok x) : a.si = x.map fun v => w.value • v := by
  cases a with
  | q y u =>
    simp only [convert] at h
    split at h
    · simp at h
    split at h
    · rename_i hu
      simp only [Except.ok.injEq] at h
      subst h
      simp only [Leaf.raw, Except.ok.injEq] at hr
      subst hr
      have : u.value = w.value := by
        unfold Units.Unit.eq at hu
        simp only [Bool.and_eq_true, decide_eq_true_eq] at hu
        exact hu.1
      simp [Leaf.si, this]
    · rw [except_bind_ok] at h
      obtain ⟨f, h1, h2⟩ := h
      rw [liftErr_ok] at h1
      obtain ⟨rfl, hw⟩ := to_value h1
      simp only [pure, Except.pure, Except.ok.injEq] at h2
      subst h2
      simp only [Leaf.raw, Except.ok.injEq] at hr
      subst hr
      simp only [Leaf.si, Option.map_some, smul_smul]
      rw [mul_div_cancel₀ _ hw]
  | unit u =>
    simp only [convert] at h
    split at h
    · simp at h
    rw [except_bind_ok] at h
    obtain ⟨f, h1, h2⟩ := h
    rw [liftErr_ok] at h1
    obtain ⟨rfl, hw⟩ := to_value h1
    simp only [pure, Except.pure, Except.ok.injEq] at h2
    subst h2
    simp only [Leaf.raw, Except.ok.injEq] at hr
    subst hr
    simp only [Leaf.si, Option.map_some, Option.some.injEq]
    rw [Algebra.smul_def, ← map_mul, mul_div_cancel₀ _ hw]
  | num y =>
    simp only [convert] at h
    split at h
    · simp at h
    split at h
    · rename_i h1
      simp only [Except.ok.injEq] at h
      subst h
      simp only [Leaf.raw, Except.ok.injEq] at hr
      subst hr
      simp [Leaf.si, h1]
    split at h
    · simp at h
    rename_i h0
    simp only [Except.ok.injEq] at h
    subst h
    simp only [Leaf.raw, Except.ok.injEq] at hr
    subst hr
    simp only [Leaf.si, Option.map_some, smul_smul, Option.some.injEq]
    rw [mul_one_div_cancel h0, one_smul]
  | other =>
    simp only [convert, Except.ok.injEq] at h
    subst h
    simp only [Leaf.raw, Except.ok.injEq] at hr
    subst hr
    rfl

theorem getUnit_pos {a : Leaf V} (h : a.Ok) : 0 < a.getUnit.value := by
  cases a <;> simp_all [Leaf.Ok, Leaf.getUnit, Units.Unit.one, Units.Unit.mk']

theorem raw_si {a : Leaf V} {x : Option V} (h : a.raw = .ok x) : a.si = x.map fun v => a.getUnit.value • v := by
  cases a <;> simp_all [Leaf.raw, Leaf.si, Leaf.getUnit, Units.Unit.one, Units.Unit.mk'] <;>
    (subst h; simp)

theorem step_spec {σ} {ctx ctx' : Ctx} {p : PSpec} {a a' : Leaf V} (hp : CtxPos ctx) (ha : a.Ok)
    (h : step σ ctx p a = .ok (ctx', a')) : CtxPos ctx' ∧ Ext ctx ctx' := by
  cases p with
  | name s =>
    simp only [step] at h
    split at h
    · rw [except_bind_ok] at h
      obtain ⟨y, -, h⟩ := h
      simp only [pure, Except.pure, Except.ok.injEq, Prod.mk.injEq] at h
      rw [← h.1]; exact ⟨hp, Ext.refl _⟩
    · rename_i hn
      simp only [Except.ok.injEq, Prod.mk.injEq] at h
      rw [← h.1]
      constructor
      · intro s' u hu
        rw [get?_set'] at hu
        split at hu
        · simp only [Option.some.injEq] at hu; rw [← hu]; exact getUnit_pos ha
        · exact hp s' u hu
      · intro s' u hu
        rw [get?_set']
        split
        · rename_i e; subst e; rw [hn] at hu; simp at hu
        · exact hu
  | unit w =>
    simp only [step, except_bind_ok] at h
    obtain ⟨y, -, h⟩ := h
    simp only [pure, Except.pure, Except.ok.injEq, Prod.mk.injEq] at h
    rw [← h.1]; exact ⟨hp, Ext.refl _⟩
  | eval e =>
    simp only [step, except_bind_ok] at h
    obtain ⟨w, -, y, -, h⟩ := h
    simp only [pure, Except.pure, Except.ok.injEq, Prod.mk.injEq] at h
    rw [← h.1]; exact ⟨hp, Ext.refl _⟩
  | skip =>
    simp only [step, Except.ok.injEq, Prod.mk.injEq] at h
    rw [← h.1]; exact ⟨hp, Ext.refl _⟩

theorem step_si {σ} {ctx ctx' cf : Ctx} {p : PSpec} {a a' : Leaf V} {x : Option V}
    (hf : CtxPos cf) (hx : Ext ctx' cf) (hfix : p.fixedOne) (hsk : SkipBare (p, a))
    (h : step σ ctx p a = .ok (ctx', a')) (hr : a'.raw = .ok x) :
    a.si = x.map fun v => p.scale (rho cf) • v := by
  cases p with
  | name s =>
    simp only [step] at h
    split at h
    · rename_i w hw
      rw [except_bind_ok] at h
      obtain ⟨y, h1, h2⟩ := h
      simp only [pure, Except.pure, Except.ok.injEq, Prod.mk.injEq] at h2
      obtain ⟨rfl, rfl⟩ := h2
      rw [convert_si h1 hr]
      simp [PSpec.scale, rho_some (hx s w hw)]
    · simp only [Except.ok.injEq, Prod.mk.injEq] at h
      obtain ⟨rfl, rfl⟩ := h
      rw [raw_si hr]
      have := hx s a.getUnit (by rw [get?_set']; simp)
      simp [PSpec.scale, rho_some this]
  | unit w =>
    simp only [step, except_bind_ok] at h
    obtain ⟨y, h1, h2⟩ := h
    simp only [pure, Except.pure, Except.ok.injEq, Prod.mk.injEq] at h2
    obtain ⟨rfl, rfl⟩ := h2
    rw [convert_si h1 hr]
    simp only [PSpec.fixedOne] at hfix
    simp [PSpec.scale, hfix]
  | eval e =>
    simp only [step, except_bind_ok] at h
    obtain ⟨w, h0, y, h1, h2⟩ := h
    simp only [pure, Except.pure, Except.ok.injEq, Prod.mk.injEq] at h2
    obtain ⟨rfl, rfl⟩ := h2
    rw [convert_si h1 hr]
    simp [PSpec.scale, UE.eval_value hf hx e h0]
  | skip =>
    simp only [step, Except.ok.injEq, Prod.mk.injEq] at h
    obtain ⟨rfl, rfl⟩ := h
    cases a <;> simp_all [SkipBare, Leaf.raw, Leaf.si, PSpec.scale] <;> (subst hr; simp)

theorem run_spec {σ} (args : List (PSpec × Leaf V)) {ctx ctx' : Ctx} {as : List (Leaf V)}
    (hp : CtxPos ctx) (ha : ∀ pa ∈ args, pa.2.Ok) (h : run σ ctx args = .ok (ctx', as)) :
    CtxPos ctx' ∧ Ext ctx ctx' := by
  induction args generalizing ctx as with
  | nil =>
    simp only [run, Except.ok.injEq, Prod.mk.injEq] at h
    rw [← h.1]; exact ⟨hp, Ext.refl _⟩
  | cons pa rest ih =>
    obtain ⟨p, a⟩ := pa
    simp only [run, except_bind_ok] at h
    obtain ⟨⟨c1, a1⟩, h1, ⟨c2, r2⟩, h2, h3⟩ := h
    simp only [pure, Except.pure, Except.ok.injEq, Prod.mk.injEq] at h3
    obtain ⟨rfl, -⟩ := h3
    have s1 := step_spec hp (ha (p, a) (by simp)) h1
    have s2 := ih s1.1 (fun pa hpa => ha pa (by simp [hpa])) h2
    exact ⟨s2.1, s1.2.trans s2.2⟩

theorem run_si {σ} (args : List (PSpec × Leaf V)) {ctx ctx' cf : Ctx} {as : List (Leaf V)}
    {xs : List (Option V)} (hp : CtxPos ctx) (ha : ∀ pa ∈ args, pa.2.Ok)
    (hfix : ∀ pa ∈ args, pa.1.fixedOne) (hsk : ∀ pa ∈ args, SkipBare pa) (hf : CtxPos cf) (hx : Ext ctx' cf)
    (h : run σ ctx args = .ok (ctx', as)) (hr : raws as = .ok xs) :
    xs.length = args.length ∧ args.map (fun pa => pa.2.si) =
      List.zipWith (fun p x => x.map fun v => PSpec.scale (rho cf) p • v) (args.map Prod.fst) xs := by
  induction args generalizing ctx as xs with
  | nil =>
    simp only [run, Except.ok.injEq, Prod.mk.injEq] at h
    rw [← h.2] at hr
    simp only [raws, Except.ok.injEq] at hr
    subst hr
    simp
  | cons pa rest ih =>
    obtain ⟨p, a⟩ := pa
    simp only [run, except_bind_ok] at h
    obtain ⟨⟨c1, a1⟩, h1, ⟨c2, r2⟩, h2, h3⟩ := h
    simp only [pure, Except.pure, Except.ok.injEq, Prod.mk.injEq] at h3
    obtain ⟨rfl, rfl⟩ := h3
    simp only [raws, except_bind_ok] at hr
    obtain ⟨x, hx1, xs', hx2, hx3⟩ := hr
    simp only [pure, Except.pure, Except.ok.injEq] at hx3
    subst hx3
    have s1 := step_spec hp (ha (p, a) (by simp)) h1
    have s2 := run_spec rest s1.1 (fun pa hpa => ha pa (by simp [hpa])) h2
    have i := ih s1.1 (fun pa hpa => ha pa (by simp [hpa])) (fun pa hpa => hfix pa (by simp [hpa]))
      (fun pa hpa => hsk pa (by simp [hpa])) h2 hx2
    have e := step_si hf (s2.2.trans hx) (hfix (p, a) (by simp)) (hsk (p, a) (by simp)) h1 hx1
    refine ⟨by simp [i.1], ?_⟩
    simp only [List.map_cons, List.zipWith_cons_cons, i.2, e]

theorem resolve_value {σ} {ctx : Ctx} (hp : CtxPos ctx) {r : Ret} (hr : r.fixedOne) {s}
    (h : r.resolve σ ctx = .ok s) (o : V × Bool) (ho : o.2 = true ∨ r = .bare) :
    (post s o).si = r.scale (rho ctx) • o.1 := by
  cases r with
  | bare =>
    simp only [Ret.resolve, Except.ok.injEq] at h
    subst h; simp [post, Res.si, Ret.scale]
  | name t =>
    simp only [reduceCtorEq, or_false] at ho
    simp only [Ret.resolve] at h
    split at h <;> simp only [Except.ok.injEq, reduceCtorEq] at h
    rename_i u hu
    subst h; simp [post, Res.si, Ret.scale, ho, rho_some hu]
  | fn e =>
    simp only [reduceCtorEq, or_false] at ho
    simp only [Ret.resolve, except_bind_ok, pure, Except.pure, Except.ok.injEq] at h
    obtain ⟨u, h1, rfl⟩ := h
    simp [post, Res.si, Ret.scale, ho, UE.eval_value hp (Ext.refl ctx) e h1]
  | fixed u =>
    simp only [reduceCtorEq, or_false] at ho
    simp only [Ret.resolve, Except.ok.injEq] at h
    subst h
    simp only [Ret.fixedOne] at hr
    simp [post, Res.si, Ret.scale, ho, hr]

theorem resolveAll_si {σ} {ctx : Ctx} (hp : CtxPos ctx) (rs : List Ret) (hr : ∀ r ∈ rs, r.fixedOne) {us}
    (h : resolveAll σ ctx rs = .ok us) (outs : List (V × Bool))
    (ho : ∀ ro ∈ rs.zip outs, ro.2.2 = true ∨ ro.1 = .bare) :
    (List.zipWith post us outs).map Res.si =
      (List.zipWith (fun r o => (Ret.scale (rho ctx) r • o.1, o.2)) rs outs).map Prod.fst := by
  induction rs generalizing us outs with
  | nil =>
    simp only [resolveAll, Except.ok.injEq] at h
    subst h; simp
  | cons r rs ih =>
    simp only [resolveAll, except_bind_ok, pure, Except.pure, Except.ok.injEq] at h
    obtain ⟨s, h1, us', h2, rfl⟩ := h
    cases outs with
    | nil => simp
    | cons o outs =>
      simp only [List.zipWith_cons_cons, List.map_cons]
      rw [resolve_value hp (hr r (by simp)) h1 o (ho (r, o) (by simp)),
        ih (fun r h => hr r (by simp [h])) h2 outs (fun ro h => ho ro (by simp [h]))]

/-! ### Errors of conversion -/

theorem one_exp (k : Units.Dim) : Units.Unit.one.exp k = 0 := Units.exp_one k

theorem dims_nil_iff {u : Units.Unit} (h : u.WF) : u.dims = [] ↔ ∀ k, u.exp k = 0 := by
  constructor
  · intro h k; simp [Units.Unit.exp, h, Units.dget]
  · intro hk
    cases hd : u.dims with
    | nil => rfl
    | cons kv rest =>
      have hm : kv ∈ u.dims := by rw [hd]; simp
      have := Units.dget_of_mem (d := u.dims) (k := kv.1) (v := kv.2) h.1 hm
      have h2 := hk kv.1
      unfold Units.Unit.exp at h2
      rw [h2] at this
      exact ((h.2 kv hm).1 this.symm).elim

theorem dictEq_iff' {u w : Units.Unit} (hu : u.WF) (hw : w.WF) :
    dictEq u.dims w.dims = true ↔ ∀ k, u.exp k = w.exp k :=
  Units.dictEq_iff (Units.wf_iff.mp hu) (Units.wf_iff.mp hw)

theorem convert_cases {w : Units.Unit} (hw : w.WF) (hwp : 0 < w.value) {a : Leaf V} (ha : a.Ok)
    (hn : a.numeric) :
    ((∀ k, a.dim k = w.exp k) → ∃ a', convert w a = .ok a' ∧ ∃ x, a'.raw = .ok (some x)) ∧
    ((¬ ∀ k, a.dim k = w.exp k) → convert w a = .error .unitError) := by
  cases a with
  | q x u =>
    have hd := dictEq_iff' ha.1 hw
    constructor
    · intro h
      have hd' := hd.mpr h
      simp only [convert, hd', Bool.true_eq_false, ↓reduceIte]
      split
      · exact ⟨_, rfl, x, rfl⟩
      · refine ⟨.q ((u.value / w.value) • x) w, ?_, _, rfl⟩
        simp [Units.Unit.to, hd', hwp.ne', liftErr, bind, Except.bind, pure, Except.pure]
    · intro h
      have hd' : dictEq u.dims w.dims = false := by
        cases hb : dictEq u.dims w.dims with
        | false => rfl
        | true => exact (h (hd.mp hb)).elim
      simp [convert, hd']
  | unit u =>
    have hd := dictEq_iff' ha.1 hw
    constructor
    · intro h
      have hd' := hd.mpr h
      refine ⟨.num (algebraMap ℝ V (u.value / w.value)), ?_, _, rfl⟩
      simp [convert, Units.Unit.to, hd', hwp.ne', liftErr, bind, Except.bind, pure, Except.pure]
    · intro h
      have hd' : dictEq u.dims w.dims = false := by
        cases hb : dictEq u.dims w.dims with
        | false => rfl
        | true => exact (h (hd.mp hb)).elim
      simp [convert, hd']
  | num x =>
    have hd := dims_nil_iff hw
    constructor
    · intro h
      have hd' := hd.mpr (fun k => (h k).symm)
      simp only [convert, hd']
      by_cases h1 : w.value = 1
      · exact ⟨.num x, by simp [h1], x, rfl⟩
      · refine ⟨.num ((1 / w.value) • x), ?_, _, rfl⟩
        simp [h1, hwp.ne']
    · intro h
      have hd' : w.dims ≠ [] := fun hh => h (fun k => (hd.mp hh k).symm)
      simp [convert, hd']
  | other => exact hn.elim

end Verif.Quant
