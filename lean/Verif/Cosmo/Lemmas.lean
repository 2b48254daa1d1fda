import Verif.Cosmo.Spec
import Mathlib.Tactic.FieldSimp
import Mathlib.Tactic.Ring
import Mathlib.Tactic.LinearCombination
import Mathlib.Data.List.Perm.Basic

/-! # Lemmas for cosmologies -/

namespace Verif.Cosmo

theorem ode0_some (c : Cls) (o : Obj) (v : ℝ) (h : o.ode = some v) (n : ℕ) : ode0 c o (n + 1) = .ok v := by
  rw [ode0, h]

theorem ok0_flat (c : Cls) (o : Obj) (h : c.flat = true) (n : ℕ) : ok0 c o n = .ok 0 := by
  cases n <;> simp [ok0, h]

theorem ode0_flat_none (c : Cls) (o : Obj) (h : c.flat = true) (ho : o.ode = none) (n : ℕ) :
    ode0 c o (n + 1) = .ok (1 - sum0 c o) := by
  rw [ode0, ho]
  simp [ok0_flat c o h]

theorem ok0_curved (c : Cls) (o : Obj) (v : ℝ) (h : c.flat = false) (ho : o.ode = some v) (n : ℕ) :
    ok0 c o (n + 2) = .ok (1 - sum0 c o - v) := by
  rw [ok0, ode0_some c o v ho]
  simp [h]

/-- Without a value for `Ode0`, a curved cosmology's two getters call each other forever. -/
theorem getters_loop (c : Cls) (o : Obj) (h : c.flat = false) (ho : o.ode = none) (n : ℕ) :
    ode0 c o n = .error .recursion ∧ ok0 c o n = .error .recursion := by
  induction n with
  | zero => exact ⟨rfl, by simp [ok0, h]⟩
  | succ n ih =>
    constructor
    · rw [ode0, ho]; simp [ih.2]
    · rw [ok0]; simp [h, ih.1]

/-- The value of `Ode0` once it can be read. -/
def odeVal (c : Cls) (o : Obj) : ℝ := o.ode.getD (1 - sum0 c o)

/-- The value of `Ok0` once it can be read. -/
def okVal (c : Cls) (o : Obj) : ℝ := if c.flat then 0 else 1 - sum0 c o - odeVal c o

theorem ode0_settled (c : Cls) (o : Obj) (h : Settled c o) (n : ℕ) : ode0 c o (n + 1) = .ok (odeVal c o) := by
  unfold odeVal
  cases ho : o.ode with
  | some v => simp [ode0_some c o v ho]
  | none =>
    rcases h with h | h
    · simp [ode0_flat_none c o h ho]
    · simp [ho] at h

theorem ok0_settled (c : Cls) (o : Obj) (h : Settled c o) (n : ℕ) : ok0 c o (n + 2) = .ok (okVal c o) := by
  unfold okVal
  cases hf : c.flat with
  | true => simp [ok0_flat c o hf]
  | false =>
    rcases h with h | h
    · simp [hf] at h
    · obtain ⟨v, hv⟩ := Option.isSome_iff_exists.mp h
      rw [ok0_curved c o v hf hv]
      simp [odeVal, hv]

/-- The value of `_e2func`. -/
noncomputable def e2Val (c : Cls) (o : Obj) (zp1 : ℝ) : ℝ :=
  zp1 ^ 2 * (o.Om0 * zp1 + okVal c o) + odeVal c o * deScale c o zp1 + if c.rad then o.Or0 * zp1 ^ 4 else 0

theorem e2_settled (c : Cls) (o : Obj) (h : Settled c o) (n : ℕ) (zp1 : ℝ) :
    e2 c o (n + 2) zp1 = .ok (e2Val c o zp1) := by
  unfold e2 e2base e2Val
  rw [ok0_settled c o h, ode0_settled c o h]
  cases hd : c.de <;> simp only <;> cases c.rad <;> simp [deScale, hd]

theorem e2func_settled (c : Cls) (o : Obj) (h : Settled c o) (n : ℕ) (z : ℝ) :
    e2func c o (n + 2) z = .ok (e2Val c o (1 + z)) := e2_settled c o h n (1 + z)

theorem exists_add_two {n : ℕ} (h : 2 ≤ n) : ∃ m, n = m + 2 := ⟨n - 2, by omega⟩

/-! ### Assignments -/

theorem assign_ode_some (p : Phys) (c : Cls) (o : Obj) (k : Key) (v : ℝ) (hc : ¬ FlatLambda c)
    (ho : o.ode.isSome = true) : (assign p c o k v).ode.isSome = true := by
  cases k <;> simp only [assign] <;> try exact ho
  · rw [if_neg hc]; rfl
  · split_ifs <;> exact ho
  · split_ifs <;> exact ho

theorem assign_ode_none (p : Phys) (c : Cls) (o : Obj) (k : Key) (v : ℝ) (hc : FlatLambda c)
    (ho : o.ode = none) : (assign p c o k v).ode = none := by
  cases k <;> simp only [assign] <;> try exact ho
  · rw [if_pos hc]; split_ifs <;> exact ho
  · split_ifs <;> exact ho
  · split_ifs <;> exact ho

theorem fold_ode_some (p : Phys) (c : Cls) (l : List (Key × ℝ)) (o : Obj) (hc : ¬ FlatLambda c)
    (h : o.ode.isSome = true ∨ ∃ v, (Key.Ode0, v) ∈ l) : (setParams p c o l).ode.isSome = true := by
  unfold setParams
  induction l generalizing o with
  | nil => simpa using h
  | cons a l ih =>
    rw [List.foldl_cons]
    apply ih
    rcases h with h | ⟨v, h⟩
    · exact .inl (assign_ode_some p c o _ _ hc h)
    · rcases List.mem_cons.mp h with rfl | h
      · left; simp only [assign]; rw [if_neg hc]; rfl
      · exact .inr ⟨v, h⟩

theorem fold_ode_none (p : Phys) (c : Cls) (l : List (Key × ℝ)) (o : Obj) (hc : FlatLambda c)
    (h : o.ode = none) : (setParams p c o l).ode = none := by
  unfold setParams
  induction l generalizing o with
  | nil => exact h
  | cons a l ih => exact ih _ (assign_ode_none p c o _ _ hc h)

theorem bindArgs_required (c : Cls) (h100 : ℝ) (kw : List (Key × ℝ)) (ks : List Key) (l : List (Key × ℝ))
    (h : bindArgs c h100 kw ks = .ok l) (k : Key) (hk : k ∈ ks) (e : Err) (hd : default c h100 k = .error e) :
    ∃ v, (k, v) ∈ l ∧ kw.lookup k = some v := by
  induction ks generalizing l with
  | nil => simp at hk
  | cons k' ks ih =>
    simp only [bindArgs] at h
    cases ha : argVal c h100 kw k' with
    | error e => rw [ha] at h; simp at h
    | ok v =>
      cases hr : bindArgs c h100 kw ks with
      | error e => rw [ha, hr] at h; simp at h
      | ok r =>
        rw [ha, hr] at h
        simp only [Except.ok.injEq] at h
        rcases List.mem_cons.mp hk with rfl | hk
        · unfold argVal at ha
          cases hl : kw.lookup k with
          | none => rw [hl] at ha; simp only [hd] at ha; cases ha
          | some x =>
            rw [hl] at ha
            cases ha
            exact ⟨x, by rw [← h]; simp, rfl⟩
        · obtain ⟨x, hx, hx2⟩ := ih r hr hk
          refine ⟨x, ?_, hx2⟩
          rw [← h]
          cases v with
          | none => exact hx
          | some _ => exact List.mem_cons_of_mem _ hx

theorem construct_eq (p : Phys) (c : Cls) (h100 : ℝ) (kw : List (Key × ℝ)) (o : Obj)
    (h : construct p c h100 kw = .ok o) :
    ∃ l, bindArgs c h100 kw (params c) = .ok l ∧ o = setParams p c (blank h100) l := by
  unfold construct at h
  split_ifs at h
  cases hb : bindArgs c h100 kw (params c) with
  | error e => rw [hb] at h; cases h
  | ok l => rw [hb] at h; simp only [Except.ok.injEq] at h; exact ⟨l, rfl, h.symm⟩

theorem params_ode (c : Cls) : Key.Ode0 ∈ params c := by simp [params]
theorem params_om (c : Cls) : Key.Om0 ∈ params c := by simp [params]

theorem reachable_ode (p : Phys) (c : Cls) (o : Obj) (h : Reachable p c o) :
    (¬ FlatLambda c → o.ode.isSome = true) ∧ (FlatLambda c → o.ode = none) := by
  obtain ⟨h100, kw, hist, o₀, hc, rfl⟩ := h
  obtain ⟨l, hl, rfl⟩ := construct_eq p c h100 kw o₀ hc
  constructor
  · intro hn
    apply fold_ode_some p c hist _ hn
    left
    apply fold_ode_some p c l _ hn
    right
    obtain ⟨v, hv, -⟩ := bindArgs_required c h100 kw _ l hl .Ode0 (params_ode c) .typeError (by
      simp only [default]; rw [if_neg hn])
    exact ⟨v, hv⟩
  · intro hf
    exact fold_ode_none p c hist _ hf (fold_ode_none p c l _ hf rfl)

theorem reachable_settled (p : Phys) (c : Cls) (o : Obj) (h : Reachable p c o) : Settled c o := by
  by_cases hf : FlatLambda c
  · exact .inl hf.1
  · exact .inr ((reachable_ode p c o h).1 hf)

theorem deScale_one (c : Cls) (o : Obj) (h : c.de ≠ .w0wz) : deScale c o 1 = 1 := by
  unfold deScale
  cases hd : c.de <;> simp_all

end Verif.Cosmo
