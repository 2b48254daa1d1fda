import Verif.Quant.Lemmas
import Mathlib.Tactic.Linarith
import Mathlib.Tactic.FieldSimp
import Mathlib.Tactic.Ring
import Mathlib.Algebra.Algebra.Pi
import Mathlib.Data.List.ReduceOption

/-! # Properties of quantities: C17-C23, C68-C71 -/

namespace Verif.Quant

open Verif.Units (SetOrder dictEq)
open Verif

variable {V : Type} [Ring V] [Algebra ℝ V]

/-! ### Generic unit invariance -/

theorem fixedOne_expand {ret : RetSpec} (h : ret.fixedOne) (n : ℕ) : ∀ r ∈ ret.expand n, r.fixedOne := by
  cases ret with
  | one r =>
    intro r' hr'
    simp only [RetSpec.expand, List.mem_replicate] at hr'
    rw [hr'.2]; exact h
  | many rs => exact h

/-- A dispatched call that returns computes on SI values. -/
theorem call_si {σ} (F : Kernel V) (ret : RetSpec) (args : List (PSpec × Leaf V)) {res : List (Res V)}
    (hF : Homogeneous F (args.map Prod.fst) ret) (hfl : FloatKernel F ret)
    (ha : ∀ pa ∈ args, pa.2.Ok) (hfix : ∀ pa ∈ args, pa.1.fixedOne) (hret : ret.fixedOne)
    (hsk : ∀ pa ∈ args, SkipBare pa) (h : call σ F ret args = .ok res) :
    ∃ outs, F (args.map fun pa => pa.2.si) = .ok outs ∧ res.map Res.si = outs.map Prod.fst := by
  simp only [call, except_bind_ok, pure, Except.pure, Except.ok.injEq] at h
  obtain ⟨⟨ctx, as⟩, h1, xs, h2, outs, h3, us, h4, rfl⟩ := h
  have hc0 : CtxPos [] := by intro s u h; simp [PyDict.get?] at h
  obtain ⟨hc, -⟩ := run_spec args hc0 ha h1
  obtain ⟨hl, hs⟩ := run_si args hc0 ha hfix hsk hc (Ext.refl ctx) h1 h2
  have hh := hF (rho ctx) (rho_pos hc) xs outs (by simpa using hl) h3
  rw [hs]
  refine ⟨_, hh, ?_⟩
  exact resolveAll_si hc _ (fixedOne_expand hret _) h4 outs (hfl xs outs h3)

/-- The families of the table that are plain `DimSpec`s. -/
def Fam.isDimSpec : Fam → Bool
  | .nounit | .angle | .multi | .power | .rpower | .det | .default => false
  | _ => true

theorem one_value : Units.Unit.one.value = 1 := rfl

theorem table_fixedOne (f : Fam) : f.spec.2.fixedOne ∧ (∀ n, ∀ p ∈ f.spec.1.pad n, p.fixedOne) := by
  constructor
  · cases f <;> simp [Fam.spec, RetSpec.fixedOne, Ret.fixedOne, radian, Units.Unit.mk']
  · intro n p hp
    have key : ∀ ps : List PSpec, (∀ p ∈ ps, p.fixedOne) → ∀ p ∈ (Params.list ps).pad n, p.fixedOne := by
      intro ps h p hp
      have := List.mem_of_mem_take hp
      rw [List.mem_append, List.mem_replicate] at this
      rcases this with h1 | ⟨-, rfl⟩
      · exact h p h1
      · trivial
    have key2 : ∀ s, ∀ p ∈ (Params.rep s).pad n, p.fixedOne := by
      intro s p hp
      rw [Params.pad, List.mem_replicate] at hp
      rw [hp.2]; trivial
    cases f <;> first
      | exact key2 _ p hp
      | (refine key _ ?_ p hp; simp [PSpec.fixedOne, radian, dimless, Units.Unit.mk', Units.Unit.one])

theorem pairs_fst (f : Fam) (args : List (List (Leaf V))) :
    ∀ pa ∈ pairs f args, pa.1 ∈ f.spec.1.pad args.length ∧ pa.2 ∈ args.flatten := by
  intro pa h
  simp only [pairs, List.mem_flatten, List.mem_map] at h
  obtain ⟨l, ⟨pl, h1, rfl⟩, h2⟩ := h
  simp only [List.mem_map] at h2
  obtain ⟨a, h3, rfl⟩ := h2
  refine ⟨(List.of_mem_zip h1).1, ?_⟩
  rw [List.mem_flatten]
  exact ⟨_, (List.of_mem_zip h1).2, h3⟩

theorem pad_length (P : Params) (n : ℕ) : (P.pad n).length = n := by
  cases P <;> simp [Params.pad]

theorem pairs_snd (f : Fam) (args : List (List (Leaf V))) : (pairs f args).map Prod.snd = args.flatten := by
  unfold pairs
  have h := pad_length f.spec.1 args.length
  generalize f.spec.1.pad args.length = ps at h
  induction args generalizing ps with
  | nil => simp
  | cons a args ih =>
    cases ps with
    | nil => simp at h
    | cons p ps =>
      simp only [List.length_cons, Nat.add_right_cancel_iff] at h
      simp only [List.zip_cons_cons, List.map_cons, List.flatten_cons, List.map_append, ih ps h]
      congr 1
      simp [Function.comp_def]

theorem torchCall_dimSpec {σ} {name : String} {f : Fam} (F : Kernel V) (args : List (List (Leaf V)))
    (hf : famOf name = f) (hd : f.isDimSpec = true) (hn : forbidden.contains name = false) :
    torchCall σ name F args = call σ F f.spec.2 (pairs f args) := by
  unfold torchCall
  rw [hn, hf]
  cases f <;> first | (simp only [Fam.isDimSpec] at hd; contradiction) | rfl

/-! ### Example data: quantities in kilometres, metres and hours -/

/-- Example data: kilometre. -/
def exKm : Units.Unit := ⟨[("L", 1)], 1000⟩

/-- Example data: metre. -/
def exM : Units.Unit := ⟨[("L", 1)], 1⟩

/-- Example data: hour. -/
def exHour : Units.Unit := ⟨[("T", 1)], 3600⟩

/-- Example data: square kilometre. -/
def exKm2 : Units.Unit := ⟨[("L", 2)], 1000000⟩

/-- Example data: percent, a unit without dimension. -/
noncomputable def exPercent : Units.Unit := ⟨[], 1 / 100⟩

theorem exKm_ok : exKm.WF ∧ 0 < exKm.value := ⟨by constructor <;> simp [exKm], by norm_num [exKm]⟩

theorem exM_ok : exM.WF ∧ 0 < exM.value := ⟨by constructor <;> simp [exM], by norm_num [exM]⟩

theorem exHour_ok : exHour.WF ∧ 0 < exHour.value := ⟨by constructor <;> simp [exHour], by norm_num [exHour]⟩

theorem exKm2_ok : exKm2.WF ∧ 0 < exKm2.value := ⟨by constructor <;> simp [exKm2], by norm_num [exKm2]⟩

theorem exPercent_ok : exPercent.WF ∧ 0 < exPercent.value :=
  ⟨by constructor <;> simp [exPercent], by norm_num [exPercent]⟩

theorem exDim_two (k : Units.Dim) : exKm2.exp k = exKm.exp k + exM.exp k := by
  by_cases h : k = "L"
  · subst h; simp [exKm2, exKm, exM, Units.Unit.exp, Units.dget]; norm_num
  · have h0 : (k == "L") = false := by simpa using h
    simp [exKm2, exKm, exM, Units.Unit.exp, Units.dget, List.lookup, h0]

/-- **C19** (all of the table). If a torch function with a `DimSpec` in the table computes a function that
is dimensionally homogeneous in the way its spec says, then whatever (positive) units the arguments are
expressed in, the call either raises or returns results whose SI values are the function of the SI values of
the arguments. -/
theorem C19_unit_invariance (σ : SetOrder) (name : String) (F : Kernel V) (args : List (List (Leaf V)))
    (hd : (famOf name).isDimSpec = true) (hn : forbidden.contains name = false)
    (hF : Homogeneous F ((pairs (famOf name) args).map Prod.fst) (famOf name).spec.2)
    (hfl : FloatKernel F (famOf name).spec.2) (hok : ∀ a ∈ args.flatten, a.Ok)
    (hsk : ∀ pa ∈ pairs (famOf name) args, SkipBare pa)
    (res : List (Res V)) (h : torchCall σ name F args = .ok res) :
    ∃ outs, F (args.flatten.map Leaf.si) = .ok outs ∧ res.map Res.si = outs.map Prod.fst := by
  rw [torchCall_dimSpec F args rfl hd hn] at h
  have := call_si F _ _ hF hfl (fun pa hpa => hok _ (pairs_fst _ _ pa hpa).2)
    (fun pa hpa => (table_fixedOne _).2 _ _ (pairs_fst _ _ pa hpa).1) (table_fixedOne _).1 hsk h
  rwa [show (pairs (famOf name) args).map (fun pa => pa.2.si) = args.flatten.map Leaf.si by
    rw [← pairs_snd (famOf name) args, List.map_map]; rfl] at this

/-! ### Evaluating calls -/

theorem get?_nil (s : String) : PyDict.get? ([] : Ctx) s = none := rfl

theorem stores_si {a : Leaf V} {x : V} (h : a.Stores x) : a.si = some (a.getUnit.value • x) := by
  rw [raw_si h]; rfl

theorem stores_numeric {a : Leaf V} {x : V} (h : a.Stores x) : a.numeric := by
  cases a <;> simp_all [Leaf.Stores, Leaf.raw, Leaf.numeric]

theorem getUnit_wf {a : Leaf V} (h : a.Ok) : a.getUnit.WF := by
  cases a
  · exact h.1
  · exact h.1
  · exact Units.wf_one
  · exact Units.wf_one

theorem getUnit_exp {a : Leaf V} (k) : a.getUnit.exp k = a.dim k := by
  cases a <;> simp [Leaf.getUnit, Leaf.dim, one_exp]

/-- The quotient of two units: always defined for positive values. -/
theorem div_spec (σ : SetOrder) {u v : Units.Unit} (hu : 0 < u.value) (hvw : v.WF) (hv : 0 < v.value) :
    ∃ w, u.div σ v = .ok w ∧ w.WF ∧ w.value = u.value / v.value ∧
      ∀ k, w.exp k = Units.limDen (u.exp k - v.exp k) := by
  have h1 := Units.pow_eq_of_pos hv (-1)
  refine ⟨u.mul σ ⟨Units.dpow v.dims (-1), v.value ^ (((-1 : ℚ)) : ℝ)⟩, ?_, Units.wf_mul _ _ _, ?_, ?_⟩
  · simp [Units.Unit.div, h1, bind, Except.bind, pure, Except.pure]
  · simp only [Units.Unit.mul]
    push_cast
    rw [Real.rpow_neg_one, div_eq_mul_inv]
  · intro k
    have h2 := Units.dget_dmul σ u.dims (Units.dpow v.dims (-1)) k
    have h3 := Units.dget_dpow_int (a := v.dims) (Units.wf_iff.mp hvw) (-1) k
    simp only [Units.Unit.mul, Units.Unit.exp]
    rw [h2]
    push_cast at h3
    rw [h3]
    ring_nf

theorem limDen_zero : Units.limDen 0 = 0 := Units.limDen_of_le (by simp [Units.maxDen])

theorem tensor_stores {a : Leaf V} (h : a.tensor) : ∃ x, a.Stores x := by
  cases a <;> simp_all [Leaf.tensor, Leaf.Stores, Leaf.raw]

theorem tensor_raw {a : Leaf V} (h : a.tensor) {A : V} (hA : a.si = some A) :
    ∃ x, a.raw = .ok (some x) ∧ A = a.getUnit.value • x := by
  obtain ⟨x, hx⟩ := tensor_stores h
  refine ⟨x, hx, ?_⟩
  rw [stores_si hx] at hA
  exact (Option.some.inj hA).symm

theorem si_numeric {a : Leaf V} {A : V} (hA : a.si = some A) : a.numeric := by
  cases a <;> simp_all [Leaf.si, Leaf.numeric]

/-- Conversion to a unit of the same dimension succeeds and keeps the SI value. -/
theorem convert_ok {w : Units.Unit} (hw : w.WF) (hwp : 0 < w.value) {a : Leaf V} (ha : a.Ok) {A : V}
    (hA : a.si = some A) (hd : ∀ k, a.dim k = w.exp k) :
    ∃ a' y, convert w a = .ok a' ∧ a'.raw = .ok (some y) ∧ A = w.value • y := by
  obtain ⟨a', h1, y, h2⟩ := (convert_cases hw hwp ha (si_numeric hA)).1 hd
  refine ⟨a', y, h1, h2, ?_⟩
  have := convert_si h1 h2
  rw [hA] at this
  simpa using this

section
omit [Ring V] [Algebra ℝ V]
theorem pairs_one (f : Fam) (a : Leaf V) (p : PSpec) (h : f.spec.1.pad 1 = [p]) :
    pairs f [[a]] = [(p, a)] := by simp [pairs, h]
theorem pairs_two (f : Fam) (a b : Leaf V) (p q : PSpec) (h : f.spec.1.pad 2 = [p, q]) :
    pairs f [[a], [b]] = [(p, a), (q, b)] := by simp [pairs, h]
theorem pairs_three (f : Fam) (a b c : Leaf V) (p q r : PSpec) (h : f.spec.1.pad 3 = [p, q, r]) :
    pairs f [[a], [b], [c]] = [(p, a), (q, b), (r, c)] := by simp [pairs, h]
theorem pairs_four (f : Fam) (a b c d : Leaf V) (p q r s : PSpec) (h : f.spec.1.pad 4 = [p, q, r, s]) :
    pairs f [[a], [b], [c], [d]] = [(p, a), (q, b), (r, c), (s, d)] := by simp [pairs, h]
theorem pairs_five (f : Fam) (a b c d e : Leaf V) (p q r s t : PSpec)
    (h : f.spec.1.pad 5 = [p, q, r, s, t]) :
    pairs f [[a], [b], [c], [d], [e]] = [(p, a), (q, b), (r, c), (s, d), (t, e)] := by simp [pairs, h]
end

/-- The unit of `alpha` in `add` and friends. -/
theorem alpha_unit (σ : SetOrder) {a b : Leaf V} (ha : a.Ok) (hb : b.Ok) :
    ∃ w, a.getUnit.div σ b.getUnit = .ok w ∧ w.WF ∧ w.value = a.getUnit.value / b.getUnit.value ∧
      0 < w.value ∧ ∀ k, w.exp k = Units.limDen (a.dim k - b.dim k) := by
  obtain ⟨w, h1, h2, h3, h4⟩ := div_spec σ (getUnit_pos ha) (getUnit_wf hb) (getUnit_pos hb)
  refine ⟨w, h1, h2, h3, ?_, ?_⟩
  · rw [h3]; exact div_pos (getUnit_pos ha) (getUnit_pos hb)
  · intro k; rw [h4, getUnit_exp, getUnit_exp]

/-- The kernel computes a linear combination of `x` and `α y`. -/
theorem add_like (σ : SetOrder) (name : String) (f : V → V → V → V) (hname : famOf name = .addsub)
    (hn : forbidden.contains name = false)
    (hf : ∀ (c d : ℝ) x y α, c ≠ 0 → d ≠ 0 → f (c • x) (d • y) ((c / d) • α) = c • f x y α)
    (a b c : Leaf V) (ha : a.Ok) (hb : b.Ok) (hc : c.Ok) (hat : a.tensor) (hbt : b.tensor)
    {A B C : V} (hA : a.si = some A) (hB : b.si = some B) (hC : c.si = some C)
    (hab : ∀ k, a.dim k = b.dim k) (hcd : ∀ k, c.dim k = 0) :
    ∃ r, torchCall σ name (k3 f) [[a], [b], [c]] = .ok [.q r a.getUnit] ∧
      a.getUnit.value • r = f A B C := by
  obtain ⟨x, hx, rfl⟩ := tensor_raw hat hA
  obtain ⟨y, hy, rfl⟩ := tensor_raw hbt hB
  obtain ⟨w, hw1, hw2, hw3, hw4, hw5⟩ := alpha_unit σ ha hb
  obtain ⟨c', z, h1, h2, rfl⟩ := convert_ok hw2 hw4 hc hC (by
    intro k; rw [hcd, hw5, hab, sub_self, limDen_zero])
  refine ⟨f x y z, ?_, ?_⟩
  · rw [torchCall_dimSpec _ _ hname rfl hn, pairs_three _ _ _ _ (.name "unit") (.name "unit2")
      (.eval (.div U U2)) rfl]
    simp [call, run, step, get?_nil, get?_set', UE.eval, U, U2, hw1, liftErr, bind, Except.bind, pure,
      Except.pure, h1, h2, raws, hx, hy, k3, Fam.spec, RetSpec.expand, resolveAll, Ret.resolve, post]
  · rw [hw3, hf _ _ _ _ _ (getUnit_pos ha).ne' (getUnit_pos hb).ne']

/-- **C18** addition. `torch.add(a, b, alpha=c)` on tensors with compatible units returns a quantity in the
unit of `a`, measuring `A + C B`. -/
theorem C18_add (σ : SetOrder) (a b c : Leaf V) (ha : a.Ok) (hb : b.Ok) (hc : c.Ok) (hat : a.tensor)
    (hbt : b.tensor) {A B C : V} (hA : a.si = some A) (hB : b.si = some B) (hC : c.si = some C)
    (hab : ∀ k, a.dim k = b.dim k) (hcd : ∀ k, c.dim k = 0) :
    ∃ r, torchCall σ "add" (k3 fun x y α => x + α * y) [[a], [b], [c]] = .ok [.q r a.getUnit] ∧
      a.getUnit.value • r = A + C * B :=
  add_like σ "add" _ (by decide +kernel) (by decide +kernel) (by
    intro c d x y α hc hd
    rw [smul_add, smul_mul_smul_comm, div_mul_cancel₀ _ hd]) a b c ha hb hc hat hbt hA hB hC hab hcd

/-- **C18** subtraction. -/
theorem C18_sub (σ : SetOrder) (a b c : Leaf V) (ha : a.Ok) (hb : b.Ok) (hc : c.Ok) (hat : a.tensor)
    (hbt : b.tensor) {A B C : V} (hA : a.si = some A) (hB : b.si = some B) (hC : c.si = some C)
    (hab : ∀ k, a.dim k = b.dim k) (hcd : ∀ k, c.dim k = 0) :
    ∃ r, torchCall σ "sub" (k3 fun x y α => x - α * y) [[a], [b], [c]] = .ok [.q r a.getUnit] ∧
      a.getUnit.value • r = A - C * B :=
  add_like σ "sub" _ (by decide +kernel) (by decide +kernel) (by
    intro c d x y α hc hd
    rw [smul_sub, smul_mul_smul_comm, div_mul_cancel₀ _ hd]) a b c ha hb hc hat hbt hA hB hC hab hcd

/-- `C18_sub`: `3 km - 2 * 500 m`. -/
example := C18_sub (V := ℝ) SetOrder.id (.q 3 exKm) (.q 500 exM) (.num 2) exKm_ok exM_ok trivial trivial trivial
  rfl rfl rfl (fun _ => rfl) (fun _ => rfl)

/-- **C18** reversed subtraction: `torch.rsub(a, b, alpha=c)` measures `B - C A`, in the unit of `b`. -/
theorem C18_rsub (σ : SetOrder) (a b c : Leaf V) (ha : a.Ok) (hb : b.Ok) (hc : c.Ok) (hat : a.tensor)
    (hbt : b.tensor) {A B C : V} (hA : a.si = some A) (hB : b.si = some B) (hC : c.si = some C)
    (hab : ∀ k, a.dim k = b.dim k) (hcd : ∀ k, c.dim k = 0) :
    ∃ r, torchCall σ "rsub" (k3 fun x y α => y - α * x) [[a], [b], [c]] = .ok [.q r b.getUnit] ∧
      b.getUnit.value • r = B - C * A := by
  obtain ⟨x, hx, rfl⟩ := tensor_raw hat hA
  obtain ⟨y, hy, rfl⟩ := tensor_raw hbt hB
  obtain ⟨w, hw1, hw2, hw3, hw4, hw5⟩ := alpha_unit σ hb ha
  obtain ⟨c', z, h1, h2, rfl⟩ := convert_ok hw2 hw4 hc hC (by
    intro k; rw [hcd, hw5, hab, sub_self, limDen_zero])
  refine ⟨y - z * x, ?_, ?_⟩
  · rw [torchCall_dimSpec (f := .rsub) _ _ (by decide +kernel) rfl (by decide +kernel),
      pairs_three _ _ _ _ (.name "unit2") (.name "unit") (.eval (.div U U2)) rfl]
    simp [call, run, step, get?_nil, get?_set', UE.eval, U, U2, hw1, liftErr, bind, Except.bind, pure,
      Except.pure, h1, h2, raws, hx, hy, k3, Fam.spec, RetSpec.expand, resolveAll, Ret.resolve, post]
  · rw [hw3, smul_sub, smul_mul_smul_comm, div_mul_cancel₀ _ (getUnit_pos ha).ne']

/-- Two lengths in different units, and a bare `alpha`: the hypotheses of C18 are met, with values. -/
example : ∃ r, torchCall (V := Unit → ℝ) SetOrder.id "add" (k3 fun x y α => x + α * y)
      [[.q (fun _ => 1) ⟨[("L", 1)], 1000⟩], [.q (fun _ => 500) ⟨[("L", 1)], 1⟩], [.num (fun _ => 2)]]
      = .ok [.q r ⟨[("L", 1)], 1000⟩] ∧ r () = 2 := by
  have hwf : ∀ v : ℝ, (⟨[("L", 1)], v⟩ : Units.Unit).WF := by
    intro v; constructor <;> simp
  obtain ⟨r, h1, h2⟩ := C18_add (V := Unit → ℝ) SetOrder.id (.q (fun _ => 1) ⟨[("L", 1)], 1000⟩)
    (.q (fun _ => 500) ⟨[("L", 1)], 1⟩) (.num (fun _ => 2)) ⟨hwf _, by norm_num⟩ ⟨hwf _, by norm_num⟩
    trivial trivial trivial rfl rfl rfl (fun k => rfl) (fun k => rfl)
  refine ⟨r, h1, ?_⟩
  have := congrFun h2 ()
  simp only [Leaf.getUnit, Pi.smul_apply, smul_eq_mul, Pi.add_apply, Pi.mul_apply] at this
  linarith

/-! ### C17: incompatible dimensions -/

/-- **C17** for `add`, `sub`, `subtract`: dimensions that differ make the call raise `UnitError`, whatever
the kernel (it is not reached) - provided the exponents differ by a number with denominator at most a
million (see `C17_add_fails` for why this is needed). `c` is `alpha`: a bare number (1 by default) or
any dimensionless quantity. -/
theorem C17_add_unitError (σ : SetOrder) (name : String) (hname : name ∈ ["add", "sub", "subtract"]) (F : Kernel V)
    (a b c : Leaf V) (ha : a.Ok) (hb : b.Ok) (hc : c.Ok) (hcn : c.numeric) (hcd : ∀ k, c.dim k = 0) (k : Units.Dim)
    (hk : a.dim k ≠ b.dim k) (hden : (a.dim k - b.dim k).den ≤ 1000000) :
    torchCall σ name F [[a], [b], [c]] = .error .unitError := by
  have hfam : famOf name = .addsub ∧ forbidden.contains name = false := by
    simp only [List.mem_cons, List.not_mem_nil, or_false] at hname
    rcases hname with rfl | rfl | rfl <;> exact ⟨by decide +kernel, by decide +kernel⟩
  obtain ⟨w, hw1, hw2, hw3, hw4, hw5⟩ := alpha_unit σ ha hb
  have he : convert w c = .error .unitError := by
    refine (convert_cases hw2 hw4 hc hcn).2 ?_
    intro h
    have := h k
    rw [hcd, hw5, Units.limDen_of_le hden] at this
    exact hk (sub_eq_zero.mp this.symm)
  rw [torchCall_dimSpec _ _ hfam.1 rfl hfam.2, pairs_three _ _ _ _ (.name "unit") (.name "unit2")
      (.eval (.div U U2)) rfl]
  simp [call, run, step, get?_nil, get?_set', UE.eval, U, U2, hw1, liftErr, bind, Except.bind, he]

/-- `C17_add_unitError`: `3 km + 2 * 5 h`. -/
example (F : Kernel ℝ) := C17_add_unitError (V := ℝ) SetOrder.id "add" (by decide) F (.q 3 exKm) (.q 5 exHour) (.num 2)
  exKm_ok exHour_ok trivial trivial (fun _ => rfl) "T" (by decide +kernel) (by decide +kernel)

/-- **C17** fails without the restriction on denominators: `L^(1/3)` and `L^(333333/1000000)` are
different dimensions, but adding quantities with these units does not raise (the difference of the exponents
is rounded to 0 by `limit_denominator`). -/
theorem C17_add_fails : ¬ ∀ (σ : SetOrder) (F : Kernel (Unit → ℝ)) (a b c : Leaf (Unit → ℝ)), a.Ok → b.Ok →
    c.Ok → c.numeric → (∀ k, c.dim k = 0) → (∃ k, a.dim k ≠ b.dim k) →
    torchCall σ "add" F [[a], [b], [c]] = .error .unitError := by
  intro h
  have hl : Units.limDen (1 / 3 - 333333 / 1000000) = 0 := by decide +kernel
  have hwf1 : (⟨[("L", 1 / 3)], 1⟩ : Units.Unit).WF := by
    constructor
    · simp
    · intro kv hkv
      simp only [List.mem_singleton] at hkv
      subst hkv
      exact ⟨by norm_num, by decide +kernel⟩
  have hwf2 : (⟨[("L", 333333 / 1000000)], 1⟩ : Units.Unit).WF := by
    constructor
    · simp
    · intro kv hkv
      simp only [List.mem_singleton] at hkv
      subst hkv
      exact ⟨by norm_num, by decide +kernel⟩
  set a : Leaf (Unit → ℝ) := .q (fun _ => 1) ⟨[("L", 1 / 3)], 1⟩ with ha
  set b : Leaf (Unit → ℝ) := .q (fun _ => 1) ⟨[("L", 333333 / 1000000)], 1⟩ with hb
  have hao : a.Ok := ⟨hwf1, by norm_num⟩
  have hbo : b.Ok := ⟨hwf2, by norm_num⟩
  obtain ⟨w, hw1, hw2, hw3, hw4, hw5⟩ := alpha_unit SetOrder.id hao hbo
  obtain ⟨c', z, h1, h2, -⟩ := convert_ok (a := (.num 1 : Leaf (Unit → ℝ))) hw2 hw4 trivial rfl (by
    intro k
    rw [hw5]
    show 0 = _
    by_cases hk : k = "L"
    · subst hk
      simpa [ha, hb, Leaf.dim, Units.Unit.exp, Units.dget] using hl.symm
    · have : a.dim k - b.dim k = 0 := by
        have h0 : (k == "L") = false := by simpa using hk
        simp [ha, hb, Leaf.dim, Units.Unit.exp, Units.dget, List.lookup, h0]
      rw [this, limDen_zero])
  have := h SetOrder.id (k3 fun x y α => x + α * y) a b (.num 1) hao hbo trivial trivial (fun _ => rfl)
    ⟨"L", by simp [ha, hb, Leaf.dim, Units.Unit.exp, Units.dget]; norm_num⟩
  rw [torchCall_dimSpec (f := .addsub) _ _ (by decide +kernel) rfl (by decide +kernel),
    pairs_three _ _ _ _ (.name "unit") (.name "unit2") (.eval (.div U U2)) rfl] at this
  have hra : a.raw = .ok (some fun _ => 1) := rfl
  have hrb : b.raw = .ok (some fun _ => 1) := rfl
  clear_value a b
  simp [call, run, step, get?_nil, get?_set', UE.eval, U, U2, hw1, liftErr, bind, Except.bind, pure,
      Except.pure, h1, h2, raws, k3, Fam.spec, RetSpec.expand, resolveAll, Ret.resolve, hra, hrb] at this

omit [Ring V] [Algebra ℝ V] in
theorem pairs_rep (f : Fam) (s : String) (h : f.spec.1 = .rep s) (args : List (List (Leaf V))) :
    pairs f args = args.flatten.map fun a => (PSpec.name s, a) := by
  unfold pairs
  rw [h]
  simp only [Params.pad]
  induction args with
  | nil => simp
  | cons a args ih => simp [List.replicate_succ, ih]

/-- Does `b` fail to have dimension `u`? (Non-numeric arguments have no dimension.) -/
def Leaf.clashes (u : Units.Unit) (b : Leaf V) : Prop := b.numeric ∧ ∃ k, b.dim k ≠ u.exp k

theorem run_names (σ : SetOrder) (s : String) (rest : List (Leaf V)) (hok : ∀ b ∈ rest, b.Ok) (ctx : Ctx)
    (w : Units.Unit) (hw : w.WF) (hwp : 0 < w.value) (hc : PyDict.get? ctx s = some w) :
    ((∃ b ∈ rest, b.clashes w) → run σ ctx (rest.map fun a => (PSpec.name s, a)) = .error .unitError) ∧
    ((∀ b ∈ rest, ¬ b.clashes w) → ∃ as xs, run σ ctx (rest.map fun a => (PSpec.name s, a)) = .ok (ctx, as) ∧
      raws as = .ok xs ∧ rest.map Leaf.si = xs.map fun x => x.map fun v => w.value • v) := by
  induction rest with
  | nil => simp [run, raws]
  | cons b rest ih =>
    obtain ⟨ih1, ih2⟩ := ih (fun c hcm => hok c (by simp [hcm]))
    by_cases hb : b.clashes w
    · have he := (convert_cases hw hwp (hok b (by simp)) hb.1).2 (by
        obtain ⟨k, hk⟩ := hb.2; exact fun h => hk (h k))
      constructor
      · intro _
        simp [run, step, hc, he, bind, Except.bind]
      · intro h; exact absurd hb (h b (by simp))
    · have hcv : ∃ b' x, convert w b = .ok b' ∧ b'.raw = .ok x ∧ b.si = x.map fun v => w.value • v := by
        by_cases hbn : b.numeric
        · obtain ⟨b', h1, x, h2⟩ := (convert_cases hw hwp (hok b (by simp)) hbn).1 (by
            intro k; by_contra hk; exact hb ⟨hbn, k, hk⟩)
          exact ⟨b', some x, h1, h2, convert_si h1 h2⟩
        · cases b <;> simp_all [Leaf.numeric, convert, Leaf.raw, Leaf.si]
      obtain ⟨b', x, h1, h2, h3⟩ := hcv
      constructor
      · rintro ⟨c, hcm, hcc⟩
        rcases List.mem_cons.mp hcm with rfl | hcm
        · exact absurd hcc hb
        · simp [run, step, hc, h1, bind, Except.bind, pure, Except.pure, ih1 ⟨c, hcm, hcc⟩]
      · intro h
        obtain ⟨as, xs, h4, h5, h6⟩ := ih2 (fun c hcm => h c (by simp [hcm]))
        refine ⟨b' :: as, x :: xs, ?_, ?_, ?_⟩
        · simp [run, step, hc, h1, bind, Except.bind, pure, Except.pure, h4]
        · simp [raws, h2, h5, bind, Except.bind, pure, Except.pure]
        · simp [h3, h6]

/-- **C17** for the functions that want all their arguments in one unit (comparisons, `minimum`,
`maximum`, `clamp`, `hypot`, `remainder`, `searchsorted`, ...: every name of the families `same` and
`sameNoUnit` of the table): with any number of arguments, some argument of a dimension different from the
first one makes the call raise `UnitError`, whatever the kernel. -/
theorem C17_same_unitError (σ : SetOrder) (name : String) (hn : forbidden.contains name = false)
    (hname : famOf name = .same ∨ famOf name = .sameNoUnit) (F : Kernel V) (args : List (List (Leaf V)))
    (a : Leaf V) (rest : List (Leaf V)) (hargs : args.flatten = a :: rest) (hok : ∀ b ∈ a :: rest, b.Ok)
    (b : Leaf V) (hb : b ∈ rest) (hbn : b.numeric) (k : Units.Dim) (hk : b.dim k ≠ a.dim k) :
    torchCall σ name F args = .error .unitError := by
  have hr := (run_names σ "unit" rest (fun c hc => hok c (by simp [hc])) (PyDict.set [] "unit" a.getUnit)
    a.getUnit (getUnit_wf (hok a (by simp))) (getUnit_pos (hok a (by simp))) (by simp [get?_set'])).1
    ⟨b, hb, hbn, k, by rwa [getUnit_exp]⟩
  have hd : (famOf name).isDimSpec = true ∧ (famOf name).spec.1 = .rep "unit" := by
    rcases hname with h | h <;> rw [h] <;> exact ⟨rfl, rfl⟩
  rw [torchCall_dimSpec F args rfl hd.1 hn, pairs_rep _ "unit" hd.2, hargs]
  simp [call, run, step, get?_nil, hr, bind, Except.bind, List.map_cons]

/-- `C17_same_unitError`: `maximum(3 km, 5 h)`. -/
example (F : Kernel ℝ) := C17_same_unitError (V := ℝ) SetOrder.id "maximum" (by decide +kernel) (by decide +kernel) F
  [[.q 3 exKm], [.q 5 exHour]] (.q 3 exKm) [.q 5 exHour] rfl (by simp [Leaf.Ok, exKm_ok, exHour_ok]) (.q 5 exHour)
  (by simp) trivial "T" (by decide +kernel)

/-- **C17**, the other direction: arguments of one dimension never raise `UnitError` from the unit layer.
The kernel is then called on numbers `xs` that express all arguments in the unit of the first one, and its
outputs get that unit (`same`) or none (`sameNoUnit`). -/
theorem C17_same_ok (σ : SetOrder) (name : String) (hn : forbidden.contains name = false)
    (hname : famOf name = .same ∨ famOf name = .sameNoUnit) (F : Kernel V) (args : List (List (Leaf V)))
    (a : Leaf V) (rest : List (Leaf V)) (hargs : args.flatten = a :: rest) (hok : ∀ b ∈ a :: rest, b.Ok)
    (hat : a.tensor) (hd : ∀ b ∈ rest, b.numeric → ∀ k, b.dim k = a.dim k) :
    ∃ xs, (a :: rest).map Leaf.si = xs.map (fun x => x.map fun v => a.getUnit.value • v) ∧
      torchCall σ name F args = (F xs).map fun outs => outs.map
        (post (if famOf name = .same then some a.getUnit else none)) := by
  obtain ⟨as, xs, h1, h2, h3⟩ := (run_names σ "unit" rest (fun c hc => hok c (by simp [hc]))
    (PyDict.set [] "unit" a.getUnit) a.getUnit (getUnit_wf (hok a (by simp))) (getUnit_pos (hok a (by simp)))
    (by simp [get?_set'])).2 (by
      rintro b hb ⟨hbn, k, hk⟩
      exact hk (by rw [getUnit_exp]; exact hd b hb hbn k))
  obtain ⟨x, hx⟩ := tensor_stores hat
  refine ⟨some x :: xs, by simp [stores_si hx, h3], ?_⟩
  have hzip : ∀ (s : Option Units.Unit) (outs : List (V × Bool)),
      List.zipWith post (List.replicate outs.length s) outs = outs.map (post s) := by
    intro s outs
    induction outs with
    | nil => rfl
    | cons o outs ih => simp [List.replicate_succ, ih]
  have hres : ∀ (ctx : Ctx) (r : Ret) (s : Option Units.Unit) (n : ℕ), r.resolve σ ctx = .ok s →
      resolveAll σ ctx (List.replicate n r) = .ok (List.replicate n s) := by
    intro ctx r s n h
    induction n with
    | zero => rfl
    | succ n ih => simp [List.replicate_succ, resolveAll, h, ih, bind, Except.bind, pure, Except.pure]
  have hx' : a.raw = .ok (some x) := hx
  rcases hname with h | h
  · rw [torchCall_dimSpec F args rfl (by rw [h]; rfl) hn, pairs_rep _ "unit" (by rw [h]; rfl), hargs, h]
    simp only [call, run, step, get?_nil, List.map_cons, h1, h2, raws, hx', bind, Except.bind, pure, Except.pure]
    cases hF : F (some x :: xs) with
    | error e => simp [Except.map]
    | ok outs =>
      simp only [Fam.spec, RetSpec.expand, Except.map, ↓reduceIte]
      rw [hres _ _ (some a.getUnit) _ (by simp [Ret.resolve, get?_set'])]
      simp [hzip]
  · rw [torchCall_dimSpec F args rfl (by rw [h]; rfl) hn, pairs_rep _ "unit" (by rw [h]; rfl), hargs, h]
    simp only [call, run, step, get?_nil, List.map_cons, h1, h2, raws, hx', bind, Except.bind, pure, Except.pure]
    cases hF : F (some x :: xs) with
    | error e => simp [Except.map]
    | ok outs =>
      simp only [Fam.spec, RetSpec.expand, Except.map, reduceCtorEq, ↓reduceIte]
      rw [hres _ _ none _ (by simp [Ret.resolve])]
      simp [hzip]

/-- `C17_same_ok`: `maximum(3 km, 500 m)`. -/
example (F : Kernel ℝ) := C17_same_ok (V := ℝ) SetOrder.id "maximum" (by decide +kernel) (by decide +kernel) F
  [[.q 3 exKm], [.q 500 exM]] (.q 3 exKm) [.q 500 exM] rfl (by simp [Leaf.Ok, exKm_ok, exM_ok]) trivial
  (by simp [Leaf.dim, Leaf.numeric, exKm, exM, Units.Unit.exp])

theorem run_append (σ : SetOrder) (l r : List (PSpec × Leaf V)) (ctx : Ctx) :
    run σ ctx (l ++ r) = (run σ ctx l >>= fun p => run σ p.1 r >>= fun q => .ok (q.1, p.2 ++ q.2)) := by
  induction l generalizing ctx with
  | nil =>
    simp only [List.nil_append, run, bind, Except.bind]
    cases run σ ctx r <;> simp
  | cons pa l ih =>
    obtain ⟨p, a⟩ := pa
    simp only [List.cons_append, run, bind, Except.bind, pure, Except.pure, ih]
    cases step σ ctx p a with
    | error e => rfl
    | ok s =>
      simp only
      cases run σ s.1 l with
      | error e => rfl
      | ok t =>
        simp only
        cases run σ t.1 r <;> simp

theorem run_skips (σ : SetOrder) (l : List (Leaf V)) (ctx : Ctx) :
    run σ ctx (l.map fun a => (PSpec.skip, a)) = .ok (ctx, l) := by
  induction l with
  | nil => rfl
  | cons a l ih => simp [run, step, ih, bind, Except.bind, pure, Except.pure]

theorem raws_append (l r : List (Leaf V)) :
    raws (l ++ r) = (raws l >>= fun xs => raws r >>= fun ys => .ok (xs ++ ys)) := by
  induction l with
  | nil =>
    simp only [List.nil_append, raws, bind, Except.bind]
    cases raws r <;> simp
  | cons a l ih =>
    simp only [List.cons_append, raws, bind, Except.bind, pure, Except.pure, ih]
    cases a.raw with
    | error e => rfl
    | ok s =>
      simp only
      cases raws l with
      | error e => rfl
      | ok t =>
        simp only
        cases raws r <;> simp

omit [Ring V] [Algebra ℝ V] in
theorem pairs_cat (ls : List (Leaf V)) (opts : List (List (Leaf V))) :
    pairs .cat (ls :: opts) = ls.map (fun a => (PSpec.name "unit", a)) ++
      opts.flatten.map fun a => (PSpec.skip, a) := by
  have h : Fam.cat.spec.1.pad (ls :: opts).length = .name "unit" :: List.replicate opts.length .skip := by
    simp [Fam.spec, Params.pad]
  rw [pairs, h]
  simp only [List.zip_cons_cons, List.map_cons, List.flatten_cons]
  congr 1
  induction opts with
  | nil => simp
  | cons o opts ih =>
    have ih' := ih (by simp [Fam.spec, Params.pad])
    simp [List.replicate_succ, ih']

/-- **C17** for joining (`cat`, `stack`, `hstack`, `block_diag`, ...): a list of tensors with one of a
different dimension than the first raises `UnitError`; `opts` are the remaining arguments. -/
theorem C17_cat_unitError (σ : SetOrder) (name : String) (hn : forbidden.contains name = false)
    (hname : famOf name = .cat) (F : Kernel V) (a : Leaf V) (rest : List (Leaf V))
    (opts : List (List (Leaf V))) (hok : ∀ b ∈ a :: rest, b.Ok) (b : Leaf V) (hb : b ∈ rest)
    (hbn : b.numeric) (k : Units.Dim) (hk : b.dim k ≠ a.dim k) :
    torchCall σ name F ((a :: rest) :: opts) = .error .unitError := by
  have hr := (run_names σ "unit" rest (fun c hc => hok c (by simp [hc])) (PyDict.set [] "unit" a.getUnit)
    a.getUnit (getUnit_wf (hok a (by simp))) (getUnit_pos (hok a (by simp))) (by simp [get?_set'])).1
    ⟨b, hb, hbn, k, by rwa [getUnit_exp]⟩
  rw [torchCall_dimSpec F _ hname rfl hn, pairs_cat, List.map_cons, List.cons_append]
  simp only [call, run, step, get?_nil, run_append, hr, bind, Except.bind]

/-- `C17_cat_unitError`: `cat([3 km, 5 m, 7 h])`. -/
example (F : Kernel ℝ) := C17_cat_unitError (V := ℝ) SetOrder.id "cat" (by decide +kernel) (by decide +kernel) F
  (.q 3 exKm) [.q 5 exM, .q 7 exHour] [] (by simp [Leaf.Ok, exKm_ok, exM_ok, exHour_ok]) (.q 7 exHour) (by simp) trivial "T"
  (by decide +kernel)

/-- **C17**/**C19** for joining tensors of one dimension: every tensor is converted to the unit of the
first, and the result has that unit. -/
theorem C19_cat (σ : SetOrder) (name : String) (hn : forbidden.contains name = false)
    (hname : famOf name = .cat) (f : List V → V) (a : Leaf V) (rest : List (Leaf V))
    (hok : ∀ b ∈ a :: rest, b.Ok) (hat : a.tensor) (hnum : ∀ b ∈ rest, b.numeric)
    (hd : ∀ b ∈ rest, ∀ k, b.dim k = a.dim k)
    (hf : ∀ (c : ℝ) (xs : List V), f (xs.map (c • ·)) = c • f xs) :
    ∃ r, torchCall σ name (fun xs => .ok [(f (xs.reduceOption), true)]) [a :: rest] = .ok [.q r a.getUnit] ∧
      a.getUnit.value • r = f ((a :: rest).map Leaf.si).reduceOption := by
  obtain ⟨as, xs, h1, h2, h3⟩ := (run_names σ "unit" rest (fun c hc => hok c (by simp [hc]))
    (PyDict.set [] "unit" a.getUnit) a.getUnit (getUnit_wf (hok a (by simp))) (getUnit_pos (hok a (by simp)))
    (by simp [get?_set'])).2 (by
      rintro b hb ⟨hbn, k, hk⟩
      exact hk (by rw [getUnit_exp]; exact hd b hb k))
  obtain ⟨x, hx⟩ := tensor_stores hat
  have hx' : a.raw = .ok (some x) := hx
  refine ⟨f (some x :: xs).reduceOption, ?_, ?_⟩
  · rw [torchCall_dimSpec _ _ hname rfl hn, pairs_cat]
    simp [call, run, step, get?_nil, get?_set', h1, h2, raws, hx', bind, Except.bind, pure, Except.pure,
      Fam.spec, RetSpec.expand, resolveAll, Ret.resolve, post]
  · rw [List.map_cons, stores_si hx, h3, List.reduceOption_cons_of_some, ← hf]
    congr 1
    rw [List.map_cons, List.reduceOption_cons_of_some, ← List.reduceOption_map]

/-- `C19_cat`: three lengths, with any homogeneous kernel (here the sum). -/
example := C19_cat (V := ℝ) SetOrder.id "cat" (by decide +kernel) (by decide +kernel) List.sum (.q 3 exKm)
  [.q 5 exM, .q 7 exKm] (by simp [Leaf.Ok, exKm_ok, exM_ok]) trivial (by simp [Leaf.numeric])
  (by simp [Leaf.dim, exKm, exM, Units.Unit.exp]) (by intro c xs; induction xs <;> simp_all [mul_add])

/-! ### C19: products, quotients, powers, fused operations -/

theorem mul_spec (σ : SetOrder) {u v : Units.Unit} (hu : 0 < u.value) (hv : 0 < v.value) :
    (u.mul σ v).WF ∧ 0 < (u.mul σ v).value ∧ (u.mul σ v).value = u.value * v.value ∧
      ∀ k, (u.mul σ v).exp k = Units.limDen (u.exp k + v.exp k) :=
  ⟨Units.wf_mul _ _ _, mul_pos hu hv, rfl, fun k => Units.dget_dmul σ u.dims v.dims k⟩

/-- **C19** products: `mul`, `matmul`, `dot`, `outer`, `einsum`-free bilinear functions of the table: for
any bilinear kernel, the result has the product of the units and measures the product of the measures. No
hypothesis on the dimensions is needed. -/
theorem C19_mul (σ : SetOrder) (name : String) (hn : forbidden.contains name = false)
    (hname : famOf name = .mul) (f : V →ₗ[ℝ] V →ₗ[ℝ] V) (a b : Leaf V) (ha : a.Ok) (hb : b.Ok)
    (hat : a.tensor) (hbt : b.tensor) {A B : V} (hA : a.si = some A) (hB : b.si = some B) :
    ∃ r, torchCall σ name (k2 fun x y => f x y) [[a], [b]] = .ok [.q r (a.getUnit.mul σ b.getUnit)] ∧
      (a.getUnit.mul σ b.getUnit).value • r = f A B := by
  obtain ⟨x, hx, rfl⟩ := tensor_raw hat hA
  obtain ⟨y, hy, rfl⟩ := tensor_raw hbt hB
  refine ⟨f x y, ?_, ?_⟩
  · rw [torchCall_dimSpec _ _ hname rfl hn, pairs_two _ _ _ (.name "unit1") (.name "unit2") rfl]
    simp [call, run, step, get?_nil, get?_set', UE.eval, U1, U2, bind, Except.bind, pure,
      Except.pure, raws, hx, hy, k2, Fam.spec, RetSpec.expand, resolveAll, Ret.resolve, post]
  · rw [(mul_spec σ (getUnit_pos ha) (getUnit_pos hb)).2.2.1]
    simp [smul_smul, mul_comm]

/-- `C19_mul`: `3 km * 2 h`. -/
example := C19_mul (V := ℝ) SetOrder.id "mul" (by decide +kernel) (by decide +kernel) (LinearMap.mul ℝ ℝ) (.q 3 exKm) (.q 2 exHour)
  exKm_ok exHour_ok trivial trivial rfl rfl

/-- `C19_unit_invariance` for the same call: the product of the numbers in base units. -/
example (res : List (Res ℝ)) (h : torchCall SetOrder.id "mul" (k2 fun x y => x * y) [[.q 3 exKm], [.q 2 exHour]] = .ok res) :
    res.map Res.si = [(1000 * 3) * (3600 * 2)] := by
  obtain ⟨outs, h1, h2⟩ := C19_unit_invariance (V := ℝ) SetOrder.id "mul" (k2 fun x y => x * y) [[.q 3 exKm], [.q 2 exHour]]
    (by decide +kernel) (by decide +kernel)
    (by
      have e : (pairs (famOf "mul") [[Leaf.q (3 : ℝ) exKm], [.q 2 exHour]]).map Prod.fst = [.name "unit1", .name "unit2"] := by
        rw [show famOf "mul" = .mul by decide +kernel]; rfl
      rw [e, show famOf "mul" = .mul by decide +kernel]
      intro ρ hρ xs outs hl hx
      match xs, hl with
      | [some x, some y], _ =>
        obtain rfl : [(x * y, true)] = outs := by simpa [k2] using hx
        simp [k2, Fam.spec, RetSpec.expand, PSpec.scale, Ret.scale, UE.val, U1, U2]; ring
      | [none, _], _ => simp [k2] at hx
      | [some x, none], _ => simp [k2] at hx)
    (by
      rw [show famOf "mul" = .mul by decide +kernel]
      intro xs outs hx ro hro
      match xs with
      | [some x, some y] =>
        obtain rfl : [(x * y, true)] = outs := by simpa [k2] using hx
        left
        simp [Fam.spec, RetSpec.expand] at hro
        simp [hro]
      | [] => simp [k2] at hx
      | [_] => simp [k2] at hx
      | [none, _] => simp [k2] at hx
      | [some x, none] => simp [k2] at hx
      | _ :: _ :: _ :: _ => simp [k2] at hx)
    (by simp [Leaf.Ok, exKm_ok, exHour_ok]) (by
      rw [show famOf "mul" = .mul by decide +kernel]
      rw [show pairs .mul [[Leaf.q (3 : ℝ) exKm], [.q 2 exHour]] = [(.name "unit1", .q 3 exKm), (.name "unit2", .q 2 exHour)] from rfl]
      simp [SkipBare]) res h
  rw [h2]
  obtain rfl : [((1000 : ℝ) * 3 * (3600 * 2), true)] = outs := by simpa [k2, Leaf.si, exKm, exHour] using h1
  rfl

/-- **C19** quotients `div`, `divide`, `true_divide`, for any kernel that scales like a quotient. -/
theorem C19_div (σ : SetOrder) (name : String) (hn : forbidden.contains name = false)
    (hname : famOf name = .div) (f : V → V → V)
    (hf : ∀ (c d : ℝ) x y, c ≠ 0 → d ≠ 0 → f (c • x) (d • y) = (c / d) • f x y) (a b : Leaf V) (ha : a.Ok)
    (hb : b.Ok) (hat : a.tensor) (hbt : b.tensor) {A B : V} (hA : a.si = some A) (hB : b.si = some B) :
    ∃ r w, a.getUnit.div σ b.getUnit = .ok w ∧ torchCall σ name (k2 f) [[a], [b]] = .ok [.q r w] ∧
      w.value • r = f A B := by
  obtain ⟨x, hx, rfl⟩ := tensor_raw hat hA
  obtain ⟨y, hy, rfl⟩ := tensor_raw hbt hB
  obtain ⟨w, hw1, hw2, hw3, -⟩ := alpha_unit σ ha hb
  refine ⟨f x y, w, hw1, ?_, ?_⟩
  · rw [torchCall_dimSpec _ _ hname rfl hn, pairs_two _ _ _ (.name "unit1") (.name "unit2") rfl]
    simp [call, run, step, get?_nil, get?_set', UE.eval, U1, U2, bind, Except.bind, pure, hw1, liftErr,
      Except.pure, raws, hx, hy, k2, Fam.spec, RetSpec.expand, resolveAll, Ret.resolve, post]
  · rw [hw3, hf _ _ _ _ (getUnit_pos ha).ne' (getUnit_pos hb).ne']

/-- Elementwise division satisfies the hypothesis of `C19_div`. -/
theorem div_scales {ι : Type} (c d : ℝ) (x y : ι → ℝ) (_ : c ≠ 0) (_ : d ≠ 0) :
    (c • x) / (d • y) = (c / d) • (x / y) := by
  funext i
  simp only [Pi.smul_apply, Pi.div_apply, smul_eq_mul]
  rw [mul_div_mul_comm]

/-- Metres over hours: `C19_div` at work on elementwise division. -/
example : ∃ r w, torchCall (V := Unit → ℝ) SetOrder.id "div" (k2 fun x y => x / y)
      [[.q (fun _ => 7200) ⟨[("L", 1)], 1⟩], [.q (fun _ => 2) ⟨[("T", 1)], 3600⟩]] = .ok [.q r w] ∧
      w.value • r = fun _ => 1 := by
  obtain ⟨r, w, -, h1, h2⟩ := C19_div (V := Unit → ℝ) SetOrder.id "div" (by decide +kernel) (by decide +kernel)
    _ div_scales (.q (fun _ => 7200) ⟨[("L", 1)], 1⟩) (.q (fun _ => 2) ⟨[("T", 1)], 3600⟩)
    ⟨by constructor <;> simp, by norm_num⟩ ⟨by constructor <;> simp, by norm_num⟩ trivial trivial rfl rfl
  refine ⟨r, w, h1, h2.trans ?_⟩
  funext i
  simp only [Pi.smul_apply, Pi.div_apply, smul_eq_mul]
  norm_num

/-- **C19** unary functions whose spec is a power of the unit: `sqrt`, `cholesky` (1/2), `rsqrt` (-1/2),
`square`, `var`, `cov` (2), `cholesky_inverse` (-2). -/
theorem C19_unary_pow (σ : SetOrder) (name : String) (hn : forbidden.contains name = false) (p : ℚ)
    (hname : (famOf name = .sqrt ∧ p = 1 / 2) ∨ (famOf name = .rsqrt ∧ p = -1 / 2) ∨
      (famOf name = .square ∧ p = 2) ∨ (famOf name = .cholInv ∧ p = -2))
    (f : V → V) (hf : ∀ (c : ℝ) x, 0 < c → f (c • x) = (c ^ (p : ℝ)) • f x) (a : Leaf V) (ha : a.Ok)
    (hat : a.tensor) {A : V} (hA : a.si = some A) :
    ∃ r w, a.getUnit.pow p = .ok w ∧ torchCall σ name (k1 f) [[a]] = .ok [.q r w] ∧ w.value • r = f A := by
  obtain ⟨x, hx, rfl⟩ := tensor_raw hat hA
  have hw := Units.pow_eq_of_pos (getUnit_pos ha) p
  refine ⟨f x, _, hw, ?_, (hf _ _ (getUnit_pos ha)).symm⟩
  rcases hname with ⟨h, rfl⟩ | ⟨h, rfl⟩ | ⟨h, rfl⟩ | ⟨h, rfl⟩ <;>
  · rw [torchCall_dimSpec _ _ h rfl hn, pairs_one _ _ (.name "unit") rfl]
    simp only [call, run, step, get?_nil, get?_set', UE.eval, U, bind, Except.bind, pure, hw, liftErr,
      Except.pure, raws, hx, k1, Fam.spec, RetSpec.expand, resolveAll, Ret.resolve, post, List.length_cons,
      List.length_nil, List.replicate, ↓reduceIte, List.zipWith]

/-- Elementwise square root satisfies the hypothesis of `C19_unary_pow` with 1/2. -/
theorem sqrt_scales {ι : Type} (c : ℝ) (x : ι → ℝ) (hc : 0 < c) :
    (fun i => Real.sqrt ((c • x) i)) = (c ^ (((1 / 2 : ℚ)) : ℝ)) • fun i => Real.sqrt (x i) := by
  funext i
  simp only [Pi.smul_apply, smul_eq_mul]
  rw [Real.sqrt_mul hc.le, Real.sqrt_eq_rpow]
  norm_num

example : ∃ r w, torchCall (V := Unit → ℝ) SetOrder.id "sqrt" (k1 fun x i => Real.sqrt (x i))
      [[.q (fun _ => 4) ⟨[("L", 1)], 100⟩]] = .ok [.q r w] ∧ w.value • r = fun _ => Real.sqrt (100 * 4) := by
  obtain ⟨r, w, -, h1, h2⟩ := C19_unary_pow (V := Unit → ℝ) SetOrder.id "sqrt" (by decide +kernel) (1 / 2)
    (Or.inl ⟨by decide +kernel, rfl⟩) (fun x i => Real.sqrt (x i)) sqrt_scales (.q (fun _ => 4) ⟨[("L", 1)], 100⟩)
    ⟨by constructor <;> simp, by norm_num⟩ trivial rfl
  exact ⟨r, w, h1, h2⟩

/-- **C19** inverses: `reciprocal`, `inverse`, `pinverse`. -/
theorem C19_inverse (σ : SetOrder) (name : String) (hn : forbidden.contains name = false)
    (hname : famOf name = .inv) (f : V → V) (hf : ∀ (c : ℝ) x, 0 < c → f (c • x) = c⁻¹ • f x) (a : Leaf V)
    (ha : a.Ok) (hat : a.tensor) {A : V} (hA : a.si = some A) :
    ∃ r w, a.getUnit.inv = .ok w ∧ torchCall σ name (k1 f) [[a]] = .ok [.q r w] ∧ w.value • r = f A := by
  obtain ⟨x, hx, rfl⟩ := tensor_raw hat hA
  have hw := Units.inv_eq (getUnit_pos ha).ne'
  refine ⟨f x, _, hw, ?_, ?_⟩
  · rw [torchCall_dimSpec _ _ hname rfl hn, pairs_one _ _ (.name "unit") rfl]
    simp only [call, run, step, get?_nil, get?_set', UE.eval, U, bind, Except.bind, pure, hw, liftErr,
      Except.pure, raws, hx, k1, Fam.spec, RetSpec.expand, resolveAll, Ret.resolve, post, List.length_cons,
      List.length_nil, List.replicate, ↓reduceIte, List.zipWith]
  · rw [hf _ _ (getUnit_pos ha)]; simp

/-- `C19_inverse`: `reciprocal(2 h)`. -/
example := C19_inverse (V := ℝ) SetOrder.id "reciprocal" (by decide +kernel) (by decide +kernel) (fun x => x⁻¹)
  (fun c x _ => by simp [mul_inv, mul_comm]) (.q 2 exHour) exHour_ok trivial rfl

/-- **C19** powers with a number: `a ** p` has the unit `unit ** p` and measures the power of the measure,
for any kernel `pw` that scales like a power at `x`. -/
theorem C19_pow (pw : V → ℚ → V) (x : V) (u : Units.Unit) (ha : (Leaf.q x u).Ok) (p : ℚ)
    (hpw : ∀ (c : ℝ), 0 < c → pw (c • x) p = (c ^ (p : ℝ)) • pw x p) :
    ∃ r w, u.pow p = .ok w ∧ callPow (fun x p => .ok (pw x p, true)) (.q x u) (.num p) = .ok (.q r w) ∧
      w.value • r = pw (u.value • x) p := by
  have hw := Units.pow_eq_of_pos ha.2 p
  refine ⟨pw x p, _, hw, ?_, (hpw _ ha.2).symm⟩
  simp [callPow, Expo.value, hw, liftErr, bind, Except.bind, pure, Except.pure, post]

/-- **C19** powers: the exponent may be a quantity only if it is dimensionless, and is then used by its SI
value; otherwise `UnitError`. -/
theorem C19_pow_exponent (pw : V → ℚ → Except Err (V × Bool)) (base : Leaf V) (p : ℚ) (dims : Units.Dict)
    (scale : ℚ) : callPow pw base (.unitful p dims scale) =
      if dims = [] then callPow pw base (.num (p * scale)) else .error .unitError := by
  by_cases h : dims = [] <;> simp [callPow, Expo.value, h, bind, Except.bind]

/-- `x ** p` elementwise for non-negative entries: kilometres to the power 3/2. -/
example (p : ℚ) : ∃ r w, callPow (V := Unit → ℝ) (fun x p => .ok (fun i => x i ^ (p : ℝ), true))
      (.q (fun _ => 4) ⟨[("L", 1)], 1000⟩) (.num p) = .ok (.q r w) ∧
      w.value • r = fun _ => (1000 * 4 : ℝ) ^ (p : ℝ) := by
  obtain ⟨r, w, -, h1, h2⟩ := C19_pow (V := Unit → ℝ) (fun x p i => x i ^ (p : ℝ)) (fun _ => 4)
    ⟨[("L", 1)], 1000⟩ ⟨by constructor <;> simp, by norm_num⟩ p (by
      intro c hc
      funext i
      simp only [Pi.smul_apply, smul_eq_mul]
      rw [Real.mul_rpow hc.le (by norm_num)])
  exact ⟨r, w, h1, h2⟩

/-- **C19** fused multiply-add: `addcmul(a, b, c, value=v)` measures `A + v B C` in the unit of `a`. -/
theorem C19_addcmul (σ : SetOrder) (f : V →ₗ[ℝ] V →ₗ[ℝ] V) (a b c v : Leaf V) (ha : a.Ok) (hb : b.Ok)
    (hc : c.Ok) (hv : v.Ok) (hat : a.tensor) (hbt : b.tensor) (hct : c.tensor) {A B C T : V}
    (hA : a.si = some A) (hB : b.si = some B) (hC : c.si = some C) (hT : v.si = some T)
    (hd : ∀ k, a.dim k = b.dim k + c.dim k) (hvd : ∀ k, v.dim k = 0) :
    ∃ r, torchCall σ "addcmul" (k4 fun x y z t => x + t * f y z) [[a], [b], [c], [v]] =
      .ok [.q r a.getUnit] ∧ a.getUnit.value • r = A + T * f B C := by
  obtain ⟨x, hx, rfl⟩ := tensor_raw hat hA
  obtain ⟨y, hy, rfl⟩ := tensor_raw hbt hB
  obtain ⟨z, hz, rfl⟩ := tensor_raw hct hC
  obtain ⟨m1, m2, m3, m4⟩ := mul_spec σ (getUnit_pos hb) (getUnit_pos hc)
  obtain ⟨w, hw1, hw2, hw3, hw4⟩ := div_spec σ (getUnit_pos ha) m1 m2
  have hwp : 0 < w.value := by rw [hw3]; exact div_pos (getUnit_pos ha) m2
  have had : ∀ k, Units.limDen (a.dim k) = a.dim k := fun k => by
    rw [← getUnit_exp]
    exact Units.limDen_of_le (Units.dget_den_le (Units.wf_iff.mp (getUnit_wf ha)) k)
  obtain ⟨v', t, h1, h2, rfl⟩ := convert_ok hw2 hwp hv hT (by
    intro k
    rw [hvd, hw4, m4]
    simp only [getUnit_exp]
    rw [← hd, had, sub_self, limDen_zero])
  refine ⟨x + t * f y z, ?_, ?_⟩
  · rw [torchCall_dimSpec (f := .addcmul) _ _ (by decide +kernel) rfl (by decide +kernel),
      pairs_four _ _ _ _ _ (.name "unit") (.name "unit1") (.name "unit2") (.eval (.div U (.mul U1 U2))) rfl]
    simp [call, run, step, get?_nil, get?_set', UE.eval, U, U1, U2, hw1, liftErr, bind, Except.bind, pure,
      Except.pure, h1, h2, raws, hx, hy, hz, k4, Fam.spec, RetSpec.expand, resolveAll, Ret.resolve, post]
  · have hbp := (getUnit_pos hb).ne'
    have hcp := (getUnit_pos hc).ne'
    rw [hw3, m3]
    simp only [map_smul, LinearMap.smul_apply, smul_add, smul_smul, smul_mul_smul_comm]
    congr 2
    field_simp

/-- `C19_addcmul`: `3 km² + 2 * 5 km * 7 m`. -/
example := C19_addcmul (V := ℝ) SetOrder.id (LinearMap.mul ℝ ℝ) (.q 3 exKm2) (.q 5 exKm) (.q 7 exM) (.num 2) exKm2_ok exKm_ok exM_ok
  trivial trivial trivial trivial rfl rfl rfl rfl
  (fun k => exDim_two k) (fun _ => rfl)

/-- **C19** fused divide-add: `addcdiv(a, b, c, value=v)` measures `A + v B / C` in the unit of `a`. -/
theorem C19_addcdiv (σ : SetOrder) (f : V → V → V)
    (hf : ∀ (c d : ℝ) x y, c ≠ 0 → d ≠ 0 → f (c • x) (d • y) = (c / d) • f x y) (a b c v : Leaf V)
    (ha : a.Ok) (hb : b.Ok) (hc : c.Ok) (hv : v.Ok) (hat : a.tensor) (hbt : b.tensor) (hct : c.tensor)
    {A B C T : V} (hA : a.si = some A) (hB : b.si = some B) (hC : c.si = some C) (hT : v.si = some T)
    (hd : ∀ k, a.dim k + c.dim k = b.dim k) (hvd : ∀ k, v.dim k = 0) :
    ∃ r, torchCall σ "addcdiv" (k4 fun x y z t => x + t * f y z) [[a], [b], [c], [v]] =
      .ok [.q r a.getUnit] ∧ a.getUnit.value • r = A + T * f B C := by
  obtain ⟨x, hx, rfl⟩ := tensor_raw hat hA
  obtain ⟨y, hy, rfl⟩ := tensor_raw hbt hB
  obtain ⟨z, hz, rfl⟩ := tensor_raw hct hC
  obtain ⟨m1, m2, m3, m4⟩ := mul_spec σ (getUnit_pos ha) (getUnit_pos hc)
  obtain ⟨w, hw1, hw2, hw3, hw4⟩ := div_spec σ m2 (getUnit_wf hb) (getUnit_pos hb)
  have hwp : 0 < w.value := by rw [hw3]; exact div_pos m2 (getUnit_pos hb)
  have had : ∀ k, Units.limDen (b.dim k) = b.dim k := fun k => by
    rw [← getUnit_exp]
    exact Units.limDen_of_le (Units.dget_den_le (Units.wf_iff.mp (getUnit_wf hb)) k)
  obtain ⟨v', t, h1, h2, rfl⟩ := convert_ok hw2 hwp hv hT (by
    intro k
    rw [hvd, hw4, m4]
    simp only [getUnit_exp]
    rw [hd, had, sub_self, limDen_zero])
  refine ⟨x + t * f y z, ?_, ?_⟩
  · rw [torchCall_dimSpec (f := .addcdiv) _ _ (by decide +kernel) rfl (by decide +kernel),
      pairs_four _ _ _ _ _ (.name "unit") (.name "unit1") (.name "unit2") (.eval (.div (.mul U U2) U1)) rfl]
    simp [call, run, step, get?_nil, get?_set', UE.eval, U, U1, U2, hw1, liftErr, bind, Except.bind, pure,
      Except.pure, h1, h2, raws, hx, hy, hz, k4, Fam.spec, RetSpec.expand, resolveAll, Ret.resolve, post]
  · have hbp := (getUnit_pos hb).ne'
    have hcp := (getUnit_pos hc).ne'
    rw [hw3, m3, hf _ _ _ _ hbp hcp]
    simp only [smul_add, smul_mul_smul_comm]
    congr 2
    field_simp

/-- `C19_addcdiv`: `3 km + 2 * 5 km² / 7 m`. -/
example := C19_addcdiv (V := ℝ) SetOrder.id (fun x y => x / y) (fun c d x y _ _ => by simp [mul_div_mul_comm]) (.q 3 exKm) (.q 5 exKm2)
  (.q 7 exM) (.num 2) exKm_ok exKm2_ok exM_ok trivial trivial trivial trivial rfl rfl rfl rfl
  (fun k => (exDim_two k).symm) (fun _ => rfl)

/-- **C19** `addmm(a, b, c, beta=β, alpha=α)` and `addbmm`, `baddbmm`, `addmv`, `addr` measure
`β A + α (B @ C)`, in the unit of `β a`. -/
theorem C19_addmm (σ : SetOrder) (name : String) (hn : forbidden.contains name = false)
    (hname : famOf name = .addmm) (f : V →ₗ[ℝ] V →ₗ[ℝ] V) (a b c β α : Leaf V) (ha : a.Ok) (hb : b.Ok)
    (hc : c.Ok) (hβ : β.Ok) (hα : α.Ok) (hat : a.tensor) (hbt : b.tensor) (hct : c.tensor) (hβt : β.tensor)
    {A B C S T : V} (hA : a.si = some A) (hB : b.si = some B) (hC : c.si = some C) (hS : β.si = some S)
    (hT : α.si = some T) (hd : ∀ k, β.dim k + a.dim k = b.dim k + c.dim k) (hαd : ∀ k, α.dim k = 0) :
    ∃ r, torchCall σ name (k5 fun x y z s t => s * x + t * f y z) [[a], [b], [c], [β], [α]] =
      .ok [.q r (a.getUnit.mul σ β.getUnit)] ∧
      (a.getUnit.mul σ β.getUnit).value • r = S * A + T * f B C := by
  obtain ⟨x, hx, rfl⟩ := tensor_raw hat hA
  obtain ⟨y, hy, rfl⟩ := tensor_raw hbt hB
  obtain ⟨z, hz, rfl⟩ := tensor_raw hct hC
  obtain ⟨s, hs, rfl⟩ := tensor_raw hβt hS
  obtain ⟨m1, m2, m3, m4⟩ := mul_spec σ (getUnit_pos hβ) (getUnit_pos ha)
  obtain ⟨n1, n2, n3, n4⟩ := mul_spec σ (getUnit_pos hb) (getUnit_pos hc)
  obtain ⟨w, hw1, hw2, hw3, hw4⟩ := div_spec σ m2 n1 n2
  have hwp : 0 < w.value := by rw [hw3]; exact div_pos m2 n2
  obtain ⟨v', t, h1, h2, rfl⟩ := convert_ok hw2 hwp hα hT (by
    intro k
    rw [hαd, hw4, m4, n4]
    simp only [getUnit_exp]
    rw [hd, sub_self, limDen_zero])
  refine ⟨s * x + t * f y z, ?_, ?_⟩
  · rw [torchCall_dimSpec (f := .addmm) _ _ hname rfl hn,
      pairs_five _ _ _ _ _ _ (.name "a") (.name "b1") (.name "b2") (.name "beta")
        (.eval (.div (.mul (.var "beta") (.var "a")) (.mul (.var "b1") (.var "b2")))) rfl]
    simp [call, run, step, get?_nil, get?_set', UE.eval, hw1, liftErr, bind, Except.bind, pure,
      Except.pure, h1, h2, raws, hx, hy, hz, hs, k5, Fam.spec, RetSpec.expand, resolveAll, Ret.resolve, post]
  · have hbp := (getUnit_pos hb).ne'
    have hcp := (getUnit_pos hc).ne'
    rw [hw3, m3, n3, (mul_spec σ (getUnit_pos ha) (getUnit_pos hβ)).2.2.1]
    simp only [map_smul, LinearMap.smul_apply, smul_add, smul_smul, smul_mul_smul_comm]
    congr 2
    · ring
    · field_simp

/-- `addmm` with quantities in various units: the hypotheses of C19_addmm are met. -/
example : ∃ r, torchCall (V := ℝ) SetOrder.id "addmm" (k5 fun x y z s t => s * x + t * LinearMap.mul ℝ ℝ y z)
      [[.q 3 ⟨[("L", 2)], 1000000⟩], [.q 5 ⟨[("L", 1)], 1000⟩], [.q 7 ⟨[("L", 1)], 1⟩], [.num 2], [.num 1]]
      = .ok [.q r (Units.Unit.mul SetOrder.id ⟨[("L", 2)], 1000000⟩ Units.Unit.one)] ∧
      (Units.Unit.mul SetOrder.id ⟨[("L", 2)], 1000000⟩ Units.Unit.one).value • r =
        2 * (1000000 * 3) + 1 * ((1000 * 5) * (1 * 7)) := by
  have hwf : ∀ (q : ℚ) (v : ℝ), q ≠ 0 → q.den ≤ 1000000 → (⟨[("L", q)], v⟩ : Units.Unit).WF := by
    intro q v h1 h2; constructor <;> simp [h1, h2]
  obtain ⟨r, h1, h2⟩ := C19_addmm (V := ℝ) SetOrder.id "addmm" (by decide +kernel) (by decide +kernel)
    (LinearMap.mul ℝ ℝ) (.q 3 ⟨[("L", 2)], 1000000⟩) (.q 5 ⟨[("L", 1)], 1000⟩) (.q 7 ⟨[("L", 1)], 1⟩) (.num 2)
    (.num 1) ⟨hwf _ _ (by norm_num) (by norm_num), by norm_num⟩ ⟨hwf _ _ (by norm_num) (by norm_num), by norm_num⟩
    ⟨hwf _ _ (by norm_num) (by norm_num), by norm_num⟩ trivial trivial trivial trivial trivial trivial rfl rfl
    rfl rfl rfl (by
      intro k
      by_cases hk : k = "L"
      · subst hk; simp [Leaf.dim, Units.Unit.exp, Units.dget]; norm_num
      · have h0 : (k == "L") = false := by simpa using hk
        simp [Leaf.dim, Units.Unit.exp, Units.dget, List.lookup, h0]) (fun k => rfl)
  exact ⟨r, h1, h2⟩

/-- Product of the units of the unitful arguments, left to right. -/
theorem foldl_mul_value (σ : SetOrder) (us : List Units.Unit) (u : Units.Unit) :
    (us.foldl (Units.Unit.mul σ) u).value = u.value * (us.map Units.Unit.value).prod := by
  induction us generalizing u with
  | nil => simp
  | cons v us ih => simp [ih, Units.Unit.mul, mul_assoc]

/-- **C19** multi-argument products (`einsum`, `chain_matmul`, `trapezoid`, ...): for a kernel that is
linear in each of its tensor arguments, called with quantities only (any number of them, at least one), the
result carries the product of the units and measures the product of the measures. -/
theorem C19_multi (σ : SetOrder) (name : String) (hn : forbidden.contains name = false)
    (hname : famOf name = .multi) (f : List V → V)
    (hf : ∀ (cs : List ℝ) (xs : List V), cs.length = xs.length →
      f (List.zipWith (fun c x => c • x) cs xs) = cs.prod • f xs)
    (q : V × Units.Unit) (qs : List (V × Units.Unit)) :
    ∃ r w, torchCall σ name (fun xs => .ok [(f xs.reduceOption, true)]) [(q :: qs).map fun p => .q p.1 p.2]
        = .ok [.q r w] ∧ w.value = ((q :: qs).map fun p => p.2.value).prod ∧
      w.value • r = f ((q :: qs).map fun p => p.2.value • p.1) := by
  have hraws : ∀ l : List (V × Units.Unit), raws (l.map fun p => Leaf.num p.1) = .ok (l.map fun p => some p.1) := by
    intro l
    induction l with
    | nil => rfl
    | cons p l ih => simp [raws, Leaf.raw, ih, bind, Except.bind, pure, Except.pure]
  have hred : ∀ l : List (V × Units.Unit), (l.map fun p => some p.1).reduceOption = l.map Prod.fst := by
    intro l
    induction l with
    | nil => rfl
    | cons p l ih => simp [List.reduceOption_cons_of_some, ih]
  have hus : ∀ l : List (V × Units.Unit), (l.map fun p => Leaf.q p.1 p.2).filterMap (fun a => match a with
      | .q _ u => some u
      | .unit u => some u
      | _ => none) = l.map Prod.snd := by
    intro l
    induction l with
    | nil => rfl
    | cons p l ih => simp [ih]
  refine ⟨f ((q :: qs).map Prod.fst), (qs.map Prod.snd).foldl (Units.Unit.mul σ) q.2, ?_, ?_, ?_⟩
  · unfold torchCall
    rw [hn, hname]
    simp only [Bool.false_eq_true, ↓reduceIte, callMulti, List.flatten_cons, List.flatten_nil, List.append_nil,
      List.map_map, hus, List.map_cons]
    have h1 := hraws (q :: qs)
    simp only [List.map_cons] at h1
    simp only [Function.comp_def, h1, bind, Except.bind, pure, Except.pure]
    have h2 := hred (q :: qs)
    simp only [List.map_cons] at h2
    simp [h2, post]
  · rw [foldl_mul_value]; simp [List.map_map, Function.comp_def]
  · rw [foldl_mul_value]
    have := hf ((q :: qs).map fun p => p.2.value) ((q :: qs).map Prod.fst) (by simp)
    rw [List.zipWith_map, List.zipWith_self] at this
    rw [this]; simp [List.map_map, Function.comp_def]

/-- `C19_multi`: the product of a length, an hour and a square kilometre. -/
example := C19_multi (V := ℝ) SetOrder.id "chain_matmul" (by decide +kernel) (by decide +kernel) List.prod
  (fun cs xs h => by
    induction cs generalizing xs with
    | nil => cases xs <;> simp_all
    | cons c cs ih =>
      cases xs with
      | nil => simp at h
      | cons x xs =>
        rw [List.zipWith_cons_cons, List.prod_cons, ih xs (by simpa using h)]
        simp; ring)
  (3, exKm) [(2, exHour), (5, exKm2)]

/-! ### C20: comparisons -/

section
open Classical

variable {ι : Type}

/-- Elementwise indicator of a relation (what `lt`, `eq`, ... return, as 0/1). -/
noncomputable def indicator (R : ℝ → ℝ → Prop) (x y : ι → ℝ) : ι → ℝ := fun i => if R (x i) (y i) then 1 else 0

/-- **C20** comparisons (`lt`, `le`, `gt`, `ge`, `eq`, `ne`, and their aliases): `a` and `b` of the same
dimension in any (positive) units compare as their SI values do; the result is a bare tensor. `R` is the
order relation, of which only invariance under positive rescaling is used. -/
theorem C20_compare (σ : SetOrder) (name : String) (hn : forbidden.contains name = false)
    (hname : famOf name = .sameNoUnit) (R : ℝ → ℝ → Prop) (hR : ∀ c x y, 0 < c → (R (c * x) (c * y) ↔ R x y))
    (a b : Leaf (ι → ℝ)) (ha : a.Ok) (hb : b.Ok) (hat : a.tensor) {A B : ι → ℝ} (hA : a.si = some A)
    (hB : b.si = some B) (hd : ∀ k, b.dim k = a.dim k) :
    torchCall σ name (k2b (indicator R)) [[a], [b]] = .ok [.bare (indicator R A B)] := by
  obtain ⟨xs, h1, h2⟩ := C17_same_ok σ name hn (Or.inr hname) (k2b (indicator R)) [[a], [b]] a [b] rfl
    (by simp [ha, hb]) hat (by simp only [List.mem_singleton]; rintro c rfl _; exact hd)
  simp only [List.map_cons, hA, hB, List.map_nil] at h1
  match xs, h1 with
  | [some x, some y], h1 =>
    simp only [List.map_cons, Option.map_some, List.map_nil, List.cons.injEq, Option.some.injEq, and_true] at h1
    rw [h2, hname]
    simp only [k2b, Except.map, List.map_cons, post, List.map_nil, reduceCtorEq, ↓reduceIte]
    congr 3
    funext i
    rw [h1.1, h1.2]
    have := hR a.getUnit.value (x i) (y i) (getUnit_pos ha)
    simp [indicator, this]

/-- The six comparisons satisfy the hypotheses of `C20_compare`. -/
theorem C20_relations : ∀ nr ∈ ([("lt", (· < ·)), ("less", (· < ·)), ("le", (· ≤ ·)), ("less_equal", (· ≤ ·)),
      ("gt", (· > ·)), ("greater", (· > ·)), ("ge", (· ≥ ·)), ("greater_equal", (· ≥ ·)), ("eq", (· = ·)),
      ("ne", (· ≠ ·)), ("not_equal", (· ≠ ·))] : List (String × (ℝ → ℝ → Prop))),
    famOf nr.1 = .sameNoUnit ∧ forbidden.contains nr.1 = false ∧
      ∀ c x y : ℝ, 0 < c → (nr.2 (c * x) (c * y) ↔ nr.2 x y) := by
  intro nr h
  simp only [List.mem_cons, List.not_mem_nil, or_false] at h
  rcases h with rfl | rfl | rfl | rfl | rfl | rfl | rfl | rfl | rfl | rfl | rfl <;>
    refine ⟨by decide +kernel, by decide +kernel, ?_⟩ <;> intro c x y hc <;>
    simp [mul_lt_mul_iff_right₀ hc, mul_le_mul_iff_right₀ hc, hc.ne']

/-- 1 km > 500 m. -/
example : torchCall (V := Unit → ℝ) SetOrder.id "gt" (k2b (indicator (· > ·)))
    [[.q (fun _ => 1) ⟨[("L", 1)], 1000⟩], [.q (fun _ => 500) ⟨[("L", 1)], 1⟩]] = .ok [.bare fun _ => 1] := by
  have h := C20_relations ("gt", (· > ·)) (by simp)
  rw [C20_compare SetOrder.id "gt" h.2.1 h.1 _ h.2.2 (.q (fun _ => 1) ⟨[("L", 1)], 1000⟩)
    (.q (fun _ => 500) ⟨[("L", 1)], 1⟩) ⟨by constructor <;> simp, by norm_num⟩
    ⟨by constructor <;> simp, by norm_num⟩ trivial rfl rfl (fun k => rfl)]
  congr 3
  funext i
  simp only [indicator, Pi.smul_apply, smul_eq_mul]
  norm_num

/-- **C20** `minimum`, `maximum`, `fmin`, `fmax`, `hypot`, `fmod`, `remainder`, ...: any elementwise
positively homogeneous function. The result has the unit of the first argument. -/
theorem C20_homogeneous (σ : SetOrder) (name : String) (hn : forbidden.contains name = false)
    (hname : famOf name = .same) (g : ℝ → ℝ → ℝ) (hg : ∀ c x y, 0 < c → g (c * x) (c * y) = c * g x y)
    (a b : Leaf (ι → ℝ)) (ha : a.Ok) (hb : b.Ok) (hat : a.tensor) {A B : ι → ℝ} (hA : a.si = some A)
    (hB : b.si = some B) (hd : ∀ k, b.dim k = a.dim k) :
    ∃ r, torchCall σ name (k2 fun x y i => g (x i) (y i)) [[a], [b]] = .ok [.q r a.getUnit] ∧
      a.getUnit.value • r = fun i => g (A i) (B i) := by
  obtain ⟨xs, h1, h2⟩ := C17_same_ok σ name hn (Or.inl hname) (k2 fun x y i => g (x i) (y i)) [[a], [b]] a [b]
    rfl (by simp [ha, hb]) hat (by simp only [List.mem_singleton]; rintro c rfl _; exact hd)
  simp only [List.map_cons, hA, hB, List.map_nil] at h1
  match xs, h1 with
  | [some x, some y], h1 =>
    simp only [List.map_cons, Option.map_some, List.map_nil, List.cons.injEq, Option.some.injEq, and_true] at h1
    refine ⟨fun i => g (x i) (y i), ?_, ?_⟩
    · rw [h2, hname]
      simp [k2, Except.map, post]
    · rw [h1.1, h1.2]
      funext i
      simp [hg _ _ _ (getUnit_pos ha)]

/-- `C20_homogeneous`: `maximum(3 km, 500 m)`, as for every entry of `C20_extrema`. -/
example := C20_homogeneous (ι := Fin 2) SetOrder.id "maximum" (by decide +kernel) (by decide +kernel) max
  (fun c x y hc => (mul_max_of_nonneg x y hc.le).symm) (.q (fun _ => 3) exKm) (.q (fun i => i) exM) exKm_ok exM_ok trivial rfl rfl
  (fun _ => rfl)

/-- `maximum`, `minimum`, `hypot` are positively homogeneous and in the family. -/
theorem C20_extrema : ∀ ng ∈ ([("maximum", max), ("minimum", min), ("fmax", max), ("fmin", min),
      ("hypot", fun x y => Real.sqrt (x ^ 2 + y ^ 2)), ("remainder", fun x y => x - y * ⌊x / y⌋)] :
      List (String × (ℝ → ℝ → ℝ))),
    famOf ng.1 = .same ∧ forbidden.contains ng.1 = false ∧
      ∀ c x y : ℝ, 0 < c → ng.2 (c * x) (c * y) = c * ng.2 x y := by
  intro ng h
  simp only [List.mem_cons, List.not_mem_nil, or_false] at h
  rcases h with rfl | rfl | rfl | rfl | rfl | rfl <;>
    refine ⟨by decide +kernel, by decide +kernel, ?_⟩ <;> intro c x y hc
  · exact (mul_max_of_nonneg x y hc.le).symm
  · exact (mul_min_of_nonneg x y hc.le).symm
  · exact (mul_max_of_nonneg x y hc.le).symm
  · exact (mul_min_of_nonneg x y hc.le).symm
  · simp only
    rw [show (c * x) ^ 2 + (c * y) ^ 2 = c ^ 2 * (x ^ 2 + y ^ 2) by ring, Real.sqrt_mul (by positivity),
      Real.sqrt_sq hc.le]
  · simp only
    rw [mul_div_mul_left _ _ hc.ne']; ring

end

/-! ### C21: bare numbers -/

/-- **C21** a bare number where the unit `w` is expected: `UnitError` iff `w` has a dimension; otherwise it is
divided by the value of `w`, which keeps what it measures. -/
theorem C21_number (w : Units.Unit) (hw : w.WF) (hwp : 0 < w.value) (x : V) :
    ((∃ k, w.exp k ≠ 0) → convert w (.num x) = .error .unitError) ∧
    ((∀ k, w.exp k = 0) → ∃ y, convert w (.num x) = .ok (.num y) ∧ w.value • y = x) := by
  constructor
  · rintro ⟨k, hk⟩
    exact (convert_cases hw hwp (a := .num x) trivial trivial).2 (fun h => hk (h k).symm)
  · intro h
    have hn : w.dims = [] := (dims_nil_iff hw).mpr h
    by_cases h1 : w.value = 1
    · exact ⟨x, by simp [convert, hn, h1], by simp [h1]⟩
    · exact ⟨(1 / w.value) • x, by simp [convert, hn, h1, hwp.ne'],
        by rw [smul_smul, mul_one_div_cancel hwp.ne', one_smul]⟩

/-- `C21_number`: kilometres are not a number, percent are. -/
example : convert exKm (.num (3 : ℝ)) = .error .unitError ∧ ∃ y, convert exPercent (.num (3 : ℝ)) = .ok (.num y) ∧ exPercent.value • y = 3 :=
  ⟨(C21_number exKm exKm_ok.1 exKm_ok.2 3).1 ⟨"L", by decide +kernel⟩,
    (C21_number exPercent exPercent_ok.1 exPercent_ok.2 3).2 fun _ => rfl⟩

/-- **C21** arguments that are not numbers (`None`, `bool`, strings) are passed on untouched. -/
theorem C21_other (w : Units.Unit) : convert w (.other : Leaf V) = .ok .other := rfl

/-- **C21** transcendental functions (`exp`, `log`, `erf`, ... , all names of the family): `UnitError` iff the
argument has a dimension; otherwise the function of the SI value, as a bare tensor (so `exp(50 percent)` is
`exp(0.5)`, and bare numbers are used as they are). -/
theorem C21_trans (σ : SetOrder) (name : String) (hn : forbidden.contains name = false)
    (hname : famOf name = .trans) (f : V → V) (a : Leaf V) (ha : a.Ok) {A : V} (hA : a.si = some A) :
    ((∃ k, a.dim k ≠ 0) → torchCall σ name (k1 f) [[a]] = .error .unitError) ∧
    ((∀ k, a.dim k = 0) → torchCall σ name (k1 f) [[a]] = .ok [.bare (f A)]) := by
  have hc := convert_cases (w := dimless) Units.wf_one (by simp [dimless, one_value]) ha (si_numeric hA)
  rw [torchCall_dimSpec _ _ hname rfl hn, pairs_one _ _ (.unit dimless) rfl]
  constructor
  · rintro ⟨k, hk⟩
    have := hc.2 (fun h => hk (by rw [h k]; exact one_exp k))
    simp [call, run, step, this, bind, Except.bind]
  · intro h
    obtain ⟨a', y, h1, h2, h3⟩ := convert_ok (w := dimless) Units.wf_one (by simp [dimless, one_value]) ha hA
      (fun k => by rw [h k]; exact (one_exp k).symm)
    rw [show dimless.value = 1 from rfl, one_smul] at h3
    rw [h3]
    simp [call, run, step, h1, h2, bind, Except.bind, pure, Except.pure, raws, k1, Fam.spec, RetSpec.expand,
      resolveAll, Ret.resolve, post]

/-- **C21** trigonometric functions: the argument is taken in radians, i.e. by its SI value. -/
theorem C21_trig (σ : SetOrder) (name : String) (hn : forbidden.contains name = false)
    (hname : famOf name = .radToDimless) (f : V → V) (a : Leaf V) (ha : a.Ok) {A : V} (hA : a.si = some A) :
    ((∃ k, a.dim k ≠ 0) → torchCall σ name (k1 f) [[a]] = .error .unitError) ∧
    ((∀ k, a.dim k = 0) → torchCall σ name (k1 f) [[a]] = .ok [.bare (f A)]) := by
  have hc := convert_cases (w := radian) Units.wf_one (by simp [radian, Units.Unit.mk']) ha (si_numeric hA)
  rw [torchCall_dimSpec _ _ hname rfl hn, pairs_one _ _ (.unit radian) rfl]
  constructor
  · rintro ⟨k, hk⟩
    have := hc.2 (fun h => hk (by rw [h k]; exact one_exp k))
    simp [call, run, step, this, bind, Except.bind]
  · intro h
    obtain ⟨a', y, h1, h2, h3⟩ := convert_ok (w := radian) Units.wf_one (by simp [radian, Units.Unit.mk']) ha hA
      (fun k => by rw [h k]; exact (one_exp k).symm)
    rw [show radian.value = 1 from rfl, one_smul] at h3
    rw [h3]
    simp [call, run, step, h1, h2, bind, Except.bind, pure, Except.pure, raws, k1, Fam.spec, RetSpec.expand,
      resolveAll, Ret.resolve, post]

/-- `C21_trig`: the sine of 3 km and of 50 percent. -/
example : torchCall (V := ℝ) SetOrder.id "sin" (k1 Real.sin) [[.q 3 exKm]] = .error .unitError ∧
    torchCall (V := ℝ) SetOrder.id "sin" (k1 Real.sin) [[.q 50 exPercent]] = .ok [.bare (Real.sin ((1 / 100 : ℝ) • 50))] :=
  ⟨(C21_trig SetOrder.id "sin" (by decide +kernel) (by decide +kernel) Real.sin (.q 3 exKm) exKm_ok rfl).1 ⟨"L", by decide +kernel⟩,
    (C21_trig SetOrder.id "sin" (by decide +kernel) (by decide +kernel) Real.sin (.q 50 exPercent) exPercent_ok rfl).2 fun _ => rfl⟩

/-- **C21** inverse trigonometric functions return angles in radians. -/
theorem C21_arctrig (σ : SetOrder) (name : String) (hn : forbidden.contains name = false)
    (hname : famOf name = .transToRadian) (f : V → V) (a : Leaf V) (ha : a.Ok) {A : V} (hA : a.si = some A) :
    ((∃ k, a.dim k ≠ 0) → torchCall σ name (k1 f) [[a]] = .error .unitError) ∧
    ((∀ k, a.dim k = 0) → torchCall σ name (k1 f) [[a]] = .ok [.q (f A) radian]) := by
  have hc := convert_cases (w := dimless) Units.wf_one (by simp [dimless, one_value]) ha (si_numeric hA)
  rw [torchCall_dimSpec _ _ hname rfl hn, pairs_one _ _ (.unit dimless) rfl]
  constructor
  · rintro ⟨k, hk⟩
    have := hc.2 (fun h => hk (by rw [h k]; exact one_exp k))
    simp [call, run, step, this, bind, Except.bind]
  · intro h
    obtain ⟨a', y, h1, h2, h3⟩ := convert_ok (w := dimless) Units.wf_one (by simp [dimless, one_value]) ha hA
      (fun k => by rw [h k]; exact (one_exp k).symm)
    rw [show dimless.value = 1 from rfl, one_smul] at h3
    rw [h3]
    simp [call, run, step, h1, h2, bind, Except.bind, pure, Except.pure, raws, k1, Fam.spec, RetSpec.expand,
      resolveAll, Ret.resolve, post]

/-- `exp` of 50 percent, and of a length. -/
example (σ : SetOrder) : torchCall (V := Unit → ℝ) σ "exp" (k1 fun x i => Real.exp (x i))
      [[.q (fun _ => 50) ⟨[], 1 / 100⟩]] = .ok [.bare fun _ => Real.exp (1 / 2)] ∧
    torchCall (V := Unit → ℝ) σ "exp" (k1 fun x i => Real.exp (x i))
      [[.q (fun _ => 50) ⟨[("L", 1)], 1⟩]] = .error .unitError := by
  constructor
  · rw [(C21_trans σ "exp" (by decide +kernel) (by decide +kernel) _ (.q (fun _ => 50) ⟨[], 1 / 100⟩)
      ⟨by constructor <;> simp, by norm_num⟩ rfl).2 (fun k => rfl)]
    congr 3
    funext i
    simp only [Pi.smul_apply, smul_eq_mul]
    norm_num
  · exact (C21_trans σ "exp" (by decide +kernel) (by decide +kernel) _ (.q (fun _ => 50) ⟨[("L", 1)], 1⟩)
      ⟨by constructor <;> simp, by norm_num⟩ rfl).1 ⟨"L", by simp [Leaf.dim, Units.Unit.exp, Units.dget]⟩

/-! ### C22, C23: conversion of a quantity -/

/-- **C22** `q.to(unit)`: `TypeError` iff the dimensions differ; otherwise the result measures the same, and
is in the requested unit (or is `q` itself if its unit is equal to it). The original is unchanged. -/
theorem C22_to {D : Type} [DecidableEq D] (cast : D → V → V) (q : QObj V D) (w : Units.Unit) (hq : q.u.WF)
    (hw : w.WF) (h0 : w.value ≠ 0) :
    ((∃ k, q.u.exp k ≠ w.exp k) → q.to cast (some w) none = .error .typeError) ∧
    ((∀ k, q.u.exp k = w.exp k) → ∃ o, q.to cast (some w) none = .ok (q, .q o) ∧ o.dt = q.dt ∧
      (∀ k, o.u.exp k = w.exp k) ∧ o.u.value = w.value ∧ o.u.value • o.x = q.u.value • q.x) := by
  have hd := dictEq_iff' hq hw
  constructor
  · rintro ⟨k, hk⟩
    have h1 : dictEq q.u.dims w.dims = false := by
      cases h : dictEq q.u.dims w.dims
      · rfl
      · exact absurd (hd.mp h k) hk
    simp [QObj.to, Units.Unit.eq, Units.Unit.to, h1, liftErr, bind, Except.bind]
  · intro h
    have h1 := hd.mpr h
    by_cases hv : q.u.value = w.value
    · refine ⟨q, ?_, rfl, h, hv, rfl⟩
      simp [QObj.to, Units.Unit.eq, h1, hv]
    · refine ⟨⟨(q.u.value / w.value) • q.x, w, q.dt⟩, ?_, rfl, fun _ => rfl, rfl, ?_⟩
      · simp [QObj.to, Units.Unit.eq, Units.Unit.to, h1, hv, h0, liftErr, bind, Except.bind, pure, Except.pure]
      · simp only [smul_smul]
        rw [mul_div_cancel₀ _ h0]

/-- **C22** conversions compose: going through an intermediate unit `v` ends with the same numbers as going
directly. -/
theorem C22_to_compose {D : Type} [DecidableEq D] (cast : D → V → V) (q : QObj V D) (v w : Units.Unit)
    (hq : q.u.WF) (hv : v.WF) (hw : w.WF) (hv0 : v.value ≠ 0) (hw0 : w.value ≠ 0)
    (h1 : ∀ k, q.u.exp k = v.exp k) (h2 : ∀ k, v.exp k = w.exp k) (o : QObj V D) (hvo : o.u.WF)
    (ho : q.to cast (some v) none = .ok (q, .q o)) :
    ∃ r r' : QObj V D, o.to cast (some w) none = .ok (o, .q r) ∧ q.to cast (some w) none = .ok (q, .q r') ∧
      r.x = r'.x ∧ r.u.value = r'.u.value ∧ (∀ k, r.u.exp k = r'.u.exp k) := by
  obtain ⟨o', e1, -, e2, e3, e4⟩ := (C22_to cast q v hq hv hv0).2 h1
  rw [e1] at ho
  simp only [Except.ok.injEq, Prod.mk.injEq, ToRes.q.injEq, true_and] at ho
  subst ho
  obtain ⟨r, f1, -, f2, f3, f4⟩ := (C22_to cast o' w hvo hw hw0).2 (fun k => (e2 k).trans (h2 k))
  obtain ⟨r', g1, -, g2, g3, g4⟩ := (C22_to cast q w hq hw hw0).2 (fun k => (h1 k).trans (h2 k))
  refine ⟨r, r', f1, g1, ?_, f3.trans g3.symm, fun k => (f2 k).trans (g2 k).symm⟩
  have : w.value • r.x = w.value • r'.x := by
    calc w.value • r.x = r'.u.value • r'.x := by rw [← f3, f4, e4, g4]
      _ = w.value • r'.x := by rw [g3]
  have h := congrArg (fun z => (w.value)⁻¹ • z) this
  simpa [smul_smul, inv_mul_cancel₀ hw0] using h

/-- 3 km is 3000 m; metres and seconds do not convert. -/
example : (∃ o, (⟨fun _ => 3, ⟨[("L", 1)], 1000⟩, ()⟩ : QObj (Unit → ℝ) Unit).to (fun _ x => x)
      (some ⟨[("L", 1)], 1⟩) none = .ok (⟨fun _ => 3, ⟨[("L", 1)], 1000⟩, ()⟩, .q o) ∧ o.u.value • o.x = fun _ => 3000) ∧
    (⟨fun _ => 3, ⟨[("L", 1)], 1000⟩, ()⟩ : QObj (Unit → ℝ) Unit).to (fun _ x => x) (some ⟨[("T", 1)], 1⟩) none =
      .error .typeError := by
  have hwf : ∀ (s : String) (v : ℝ), (⟨[(s, 1)], v⟩ : Units.Unit).WF := by intro s v; constructor <;> simp
  constructor
  · obtain ⟨o, h1, -, -, -, h2⟩ := (C22_to (V := Unit → ℝ) (fun _ x => x) (⟨fun _ => 3, ⟨[("L", 1)], 1000⟩, ()⟩ : QObj (Unit → ℝ) Unit)
      ⟨[("L", 1)], 1⟩ (hwf _ _) (hwf _ _) (by norm_num)).2 (fun k => rfl)
    refine ⟨o, h1, h2.trans ?_⟩
    funext i; simp only [Pi.smul_apply, smul_eq_mul]; norm_num
  · refine (C22_to (V := Unit → ℝ) (fun _ x => x) (⟨fun _ => 3, ⟨[("L", 1)], 1000⟩, ()⟩ : QObj (Unit → ℝ) Unit)
      ⟨[("T", 1)], 1⟩ (hwf _ _) (hwf _ _) (by norm_num)).1 ⟨"L", ?_⟩
    simp [Units.Unit.exp, Units.dget, List.lookup]

/-- **C23** is false of the code: whenever the dtype really changes, `q.to(unit, dtype)` never returns a
quantity: it returns a bare tensor if `unit` is the unit of `q`, and raises `AttributeError` otherwise. -/
theorem C23_dtype_loses_unit {D : Type} [DecidableEq D] (cast : D → V → V) (q : QObj V D) (w : Units.Unit) (d : D)
    (hd : d ≠ q.dt) :
    q.to cast (some w) (some d) = if q.u.eq w then .ok (q, .bare (cast d q.x) d) else .error .attributeError := by
  simp only [QObj.to, if_neg hd]

/-- `C23_dtype_loses_unit`: a quantity with data type `false` converted to data type `true`. -/
example := C23_dtype_loses_unit (V := ℝ) (D := Bool) (fun _ x => x) ⟨3, exKm, false⟩ exM true (by decide)

/-- **C23**, what does hold: with an unchanged dtype the unit is kept, and `q.to(dtype)` alone keeps the
unit. -/
theorem C23_to_partial {D : Type} [DecidableEq D] (cast : D → V → V) (q : QObj V D) (d : D) :
    (∀ w, q.to cast w (some q.dt) = q.to cast w none) ∧
    (d ≠ q.dt → q.to cast none (some d) = .ok (q, .q ⟨cast d q.x, q.u, d⟩)) := by
  constructor
  · intro w; cases w <;> simp [QObj.to]
  · intro h; simp [QObj.to, h]

/-! ### C68-C71: functions outside the table, integers, defaults -/

/-- Names of in-place functions: none is in the table, so all get the default spec. -/
def inplaceNames : List String :=
  ["add_", "sub_", "subtract_", "mul_", "multiply_", "div_", "divide_", "true_divide_", "pow_", "__iadd__",
   "__isub__", "__imul__", "__itruediv__", "__ipow__", "copy_", "fill_", "clamp_", "lt_", "eq_", "fmod_",
   "remainder_", "addcmul_", "addcdiv_", "lerp_", "sqrt_", "square_", "reciprocal_", "exp_", "log_", "sin_"]

/-- **C68** is false of the code: in-place functions do no unit handling at all. The stored numbers are
combined as they are and the unit of the first operand is kept, whatever the other units. -/
theorem C68_inplace_ignores_units (σ : SetOrder) (name : String) (hname : name ∈ inplaceNames)
    (f : V → V → V) (x y : V) (u v : Units.Unit) :
    torchCall σ name (k2 f) [[.q x u], [.q y v]] = .ok [.q (f x y) u] := by
  have h : ∀ n ∈ inplaceNames, famOf n = .default ∧ forbidden.contains n = false := by decide +kernel
  obtain ⟨h1, h2⟩ := h name hname
  unfold torchCall
  rw [h2, h1]
  simp [callDefault, raws, Leaf.raw, k2, bind, Except.bind, pure, Except.pure, post]

/-- **C68**, concretely: `a = 1 km; a += 500 m` gives 501 km, and `a *= 2 s` leaves a length. -/
example (σ : SetOrder) :
    torchCall (V := Unit → ℝ) σ "add_" (k2 fun x y => x + y)
      [[.q (fun _ => 1) ⟨[("L", 1)], 1000⟩], [.q (fun _ => 500) ⟨[("L", 1)], 1⟩]] =
        .ok [.q (fun _ => 501) ⟨[("L", 1)], 1000⟩] ∧
    torchCall (V := Unit → ℝ) σ "mul_" (k2 fun x y => x * y)
      [[.q (fun _ => 3) ⟨[("L", 1)], 1⟩], [.q (fun _ => 2) ⟨[("T", 1)], 1⟩]] =
        .ok [.q (fun _ => 6) ⟨[("L", 1)], 1⟩] := by
  constructor
  · rw [C68_inplace_ignores_units σ _ (by decide +kernel)]
    congr 3; funext i; norm_num [Pi.add_apply]
  · rw [C68_inplace_ignores_units σ _ (by decide +kernel)]
    congr 3; funext i; norm_num [Pi.mul_apply]

/-- **C68**, what does hold: functions outside the table with one tensor argument and a linear kernel
(`sum`, `mean`, `reshape`, `cumsum`, `neg`, `abs` ...) measure the function of the measure and keep the
unit. -/
theorem C68_default_linear_partial (σ : SetOrder) (name : String) (hn : forbidden.contains name = false)
    (hname : famOf name = .default) (f : V → V) (hf : ∀ (c : ℝ) x, 0 < c → f (c • x) = c • f x) (x : V)
    (u : Units.Unit) (hu : 0 < u.value) :
    torchCall σ name (k1 f) [[.q x u]] = .ok [.q (f x) u] ∧ u.value • f x = f (u.value • x) := by
  refine ⟨?_, (hf _ _ hu).symm⟩
  unfold torchCall
  rw [hn, hname]
  simp [callDefault, raws, Leaf.raw, k1, bind, Except.bind, pure, Except.pure, post]

/-- `sum`, `mean`, `neg`, `abs`, `cumsum` are dispatched with the default spec. -/
example : ∀ n ∈ ["sum", "mean", "neg", "abs", "cumsum", "reshape", "max", "sort"],
    famOf n = .default ∧ forbidden.contains n = false := by decide +kernel

/-- **C69** is false of the code: on integer tensors the result of `add` (and of every other function) is
stripped of its unit, although it is not dimensionless. -/
theorem C69_integer_loses_unit (σ : SetOrder) (f : V → V → V) (x y : V) (u : Units.Unit) (name : String)
    (hn : forbidden.contains name = false) (hname : famOf name = .same) (hu : u.WF) (hp : 0 < u.value) :
    torchCall σ name (k2b f) [[.q x u], [.q y u]] = .ok [.bare (f x y)] := by
  have hd : dictEq u.dims u.dims = true := (dictEq_iff' hu hu).mpr fun _ => rfl
  rw [torchCall_dimSpec _ _ hname rfl hn, pairs_two _ _ _ (.name "unit") (.name "unit") rfl]
  simp [call, run, step, get?_nil, get?_set', bind, Except.bind, pure, Except.pure, raws, Leaf.raw, convert, hd, k2b,
    Units.Unit.eq, Leaf.getUnit, Fam.spec, RetSpec.expand, resolveAll, Ret.resolve, post]

/-- `maximum` of two integer lengths in kilometres is a bare number of kilometres. -/
example (σ : SetOrder) : torchCall (V := Unit → ℝ) σ "maximum" (k2b fun x y i => max (x i) (y i))
      [[.q (fun _ => 1) ⟨[("L", 1)], 1000⟩], [.q (fun _ => 2) ⟨[("L", 1)], 1000⟩]] = .ok [.bare fun _ => 2] := by
  rw [C69_integer_loses_unit (V := Unit → ℝ) σ (fun x y i => max (x i) (y i)) (fun _ => 1) (fun _ => 2)
    ⟨[("L", 1)], 1000⟩ "maximum" (by decide +kernel) (by decide +kernel) (by constructor <;> simp) (by norm_num)]
  congr 3; funext i; norm_num

/-- **C70** is false of the code: `histc(q)` with the default `min=0`, `max=0` always raises `UnitError` for
a quantity with a dimension. -/
theorem C70_histc_default_raises (σ : SetOrder) (F : Kernel V) (a bins : Leaf V) (ha : a.Ok) (k : Units.Dim)
    (hk : a.dim k ≠ 0) :
    torchCall σ "histc" F [[a], [bins], [.num 0], [.num 0]] = .error .unitError := by
  have he : convert a.getUnit (.num (0 : V)) = .error .unitError :=
    (C21_number _ (getUnit_wf ha) (getUnit_pos ha) _).1 ⟨k, by rwa [getUnit_exp]⟩
  rw [torchCall_dimSpec (f := .histc) _ _ (by decide +kernel) rfl (by decide +kernel),
    pairs_four _ _ _ _ _ (.name "unit") .skip (.name "unit") (.name "unit") rfl]
  simp [call, run, step, get?_nil, get?_set', he, bind, Except.bind]

/-- `C70_histc_default_raises`: a histogram of lengths. -/
example (F : Kernel ℝ) := C70_histc_default_raises (V := ℝ) SetOrder.id F (.q 3 exKm) (.num 10) exKm_ok "L" (by decide +kernel)

open Classical in
/-- Elementwise `torch.isclose`: `|x - y| ≤ atol + rtol |y|` (as 0/1), tolerances being numbers. -/
noncomputable def iscloseK {ι : Type} : Kernel (ι → ℝ)
  | [some x, some y, some rtol, some atol] =>
    .ok [(fun i => if |x i - y i| ≤ atol i + rtol i * |y i| then 1 else 0, false)]
  | _ => .error .torch

/-- **C71** is false of the code: `isclose` with its default absolute tolerance gives different answers for
the same two lengths expressed in metres and in kilometres. -/
theorem C71_isclose_depends_on_unit (σ : SetOrder) :
    let atol : Leaf (Unit → ℝ) := .num fun _ => 1 / 100000000
    let rtol : Leaf (Unit → ℝ) := .num fun _ => 1 / 100000
    let q (x : ℝ) (s : ℝ) : Leaf (Unit → ℝ) := .q (fun _ => x) ⟨[("L", 1)], s⟩
    (q 0 1000).si = (q 0 1).si ∧ (q (1 / 1000000000) 1000).si = (q (1 / 1000000) 1).si ∧
    torchCall σ "isclose" iscloseK [[q 0 1000], [q (1 / 1000000000) 1000], [rtol], [atol]] = .ok [.bare fun _ => 1] ∧
    torchCall σ "isclose" iscloseK [[q 0 1], [q (1 / 1000000) 1], [rtol], [atol]] = .ok [.bare fun _ => 0] := by
  have hd : ∀ v : ℝ, dictEq [("L", (1 : ℚ))] [("L", 1)] = true := by intro v; simp [dictEq]
  have hd1 := hd 1
  refine ⟨?_, ?_, ?_, ?_⟩
  · simp only [Leaf.si, Option.some.injEq]
    funext i; simp
  · simp only [Leaf.si, Option.some.injEq]
    funext i; simp only [Pi.smul_apply, smul_eq_mul]; norm_num
  all_goals
    rw [torchCall_dimSpec (f := .close) _ _ (by decide +kernel) rfl (by decide +kernel),
      pairs_four _ _ _ _ _ (.name "unit") (.name "unit") .skip .skip rfl]
    simp [call, run, step, get?_nil, get?_set', bind, Except.bind, pure, Except.pure, raws, Leaf.raw, convert, hd1,
      Units.Unit.eq, Leaf.getUnit, Fam.spec, RetSpec.expand, resolveAll, Ret.resolve, post, iscloseK]
    norm_num

open Classical in
/-- **C71**, what does hold: with `atol = 0` the answer is a function of the SI values, whatever the units. -/
theorem C71_isclose_partial {ι : Type} (σ : SetOrder) (a b : Leaf (ι → ℝ)) (ha : a.Ok) (hb : b.Ok) (hat : a.tensor)
    {A B : ι → ℝ} (hA : a.si = some A) (hB : b.si = some B) (hd : ∀ k, b.dim k = a.dim k) (rtol : ι → ℝ) :
    torchCall σ "isclose" iscloseK [[a], [b], [.num rtol], [.num 0]] =
      .ok [.bare fun i => if |A i - B i| ≤ rtol i * |B i| then 1 else 0] := by
  obtain ⟨x, hx, rfl⟩ := tensor_raw hat hA
  obtain ⟨b', y, h1, h2, rfl⟩ := convert_ok (getUnit_wf ha) (getUnit_pos ha) hb hB
    (fun k => by rw [hd, getUnit_exp])
  rw [torchCall_dimSpec (f := .close) _ _ (by decide +kernel) rfl (by decide +kernel),
      pairs_four _ _ _ _ _ (.name "unit") (.name "unit") .skip .skip rfl]
  have hnum : ∀ z : ι → ℝ, (Leaf.num z).raw = .ok (some z) := fun _ => rfl
  simp only [call, run, step, get?_nil, get?_set', bind, Except.bind, pure, Except.pure, raws, hx, h1, h2, hnum,
      Fam.spec, RetSpec.expand, resolveAll, Ret.resolve, post, iscloseK, ↓reduceIte, List.length_cons,
      List.length_nil, List.replicate, List.zipWith]
  congr 3
  funext i
  have hp := getUnit_pos ha
  simp only [Pi.zero_apply, zero_add, Pi.smul_apply, smul_eq_mul]
  have hiff : |x i - y i| ≤ rtol i * |y i| ↔
      |a.getUnit.value * x i - a.getUnit.value * y i| ≤ rtol i * |a.getUnit.value * y i| := by
    rw [← mul_sub, abs_mul, abs_mul, abs_of_pos hp,
      show rtol i * (a.getUnit.value * |y i|) = a.getUnit.value * (rtol i * |y i|) by ring,
      mul_le_mul_iff_right₀ hp]
  by_cases h : |x i - y i| ≤ rtol i * |y i|
  · rw [if_pos h, if_pos (hiff.mp h)]
  · rw [if_neg h, if_neg (fun h' => h (hiff.mpr h'))]

/-- `C71_isclose_partial`: 3 km and 3001 m. -/
example := C71_isclose_partial (ι := Fin 2) SetOrder.id (.q (fun _ => 3) exKm) (.q (fun _ => 3001) exM) exKm_ok exM_ok trivial rfl rfl
  (fun _ => rfl) (fun _ => 1 / 1000)

end Verif.Quant
