import Verif.Quant.LinAlg
import Mathlib.LinearAlgebra.Matrix.Determinant.Basic

/-! # C131, continued: LU factorisations, determinants, and the functions without an entry in the table -/

namespace Verif.Quant.LinAlg

open Verif.Units (SetOrder)
open Matrix

/-! ### LU -/

theorem pairs_opts3 (f : Fam) (p q r : PSpec) (hf : f.spec.1 = .list [p, q, r]) (a b c : Leaf T) (k : ℕ) :
    pairs f ([a] :: [b] :: [c] :: List.replicate k [.other]) =
      (p, a) :: (q, b) :: (r, c) :: List.replicate k (.skip, .other) := by
  have h : f.spec.1.pad ([a] :: [b] :: [c] :: List.replicate k [.other]).length =
      p :: q :: r :: List.replicate k .skip := by
    rw [hf]
    simp only [Params.pad, List.length_cons, List.length_replicate, List.cons_append, List.nil_append,
      List.take_succ_cons, List.take_replicate]
    congr 4; omega
  rw [pairs, h]
  simp only [List.zip_cons_cons, List.map_cons, List.flatten_cons, List.map_nil, List.singleton_append]
  congr 3
  clear h
  induction k with
  | zero => rfl
  | succ k ih => simp [List.replicate_succ, ih]

theorem pairs_lu2 (f : Fam) (p q : PSpec) (hf : f.spec.1 = .list [p, q]) (a b : Leaf T) (k : ℕ) :
    pairs f ([a] :: [b] :: List.replicate k [.other]) =
      (p, a) :: (q, b) :: List.replicate k (.skip, .other) := by
  have h : f.spec.1.pad ([a] :: [b] :: List.replicate k [.other]).length =
      p :: q :: List.replicate k .skip := by
    rw [hf]
    simp only [Params.pad, List.length_cons, List.length_replicate, List.cons_append, List.nil_append,
      List.take_succ_cons, List.take_replicate]
    congr 3; omega
  rw [pairs, h]
  simp only [List.zip_cons_cons, List.map_cons, List.flatten_cons, List.map_nil, List.singleton_append]
  congr 2
  clear h
  induction k with
  | zero => rfl
  | succ k ih => simp [List.replicate_succ, ih]

theorem convert_dimless (p : T) : convert dimless (.num p : Leaf T) = .ok (.num p) := by
  simp [convert, dimless, Units.Unit.one, Units.Unit.mk', Units.mkDims, Units.dictOf]

/-- A packed LU factorisation of `A` with pivots: `perm piv` is the row permutation they describe. -/
def IsLU {n : ℕ} (perm : T → Matrix (Fin n) (Fin n) ℂ) (A : Matrix (Fin n) (Fin n) ℂ) (LU piv : T) : Prop :=
  perm piv * A = lowerOf (mat n n LU) * upperOf (mat n n LU) ∧ IsUnit (perm piv)

/-- What `lu_solve` computes from stored numbers. -/
def IsLUSol {n m : ℕ} (perm : T → Matrix (Fin n) (Fin n) ℂ) (y LU piv X : T) : Prop :=
  lowerOf (mat n n LU) * upperOf (mat n n LU) * mat n m X = perm piv * mat n m y

theorem luSol_solves {n m : ℕ} {perm : T → Matrix (Fin n) (Fin n) ℂ} {x y LU piv X : T}
    (h : IsLU perm (mat n n x) LU piv) (hX : IsLUSol (m := m) perm y LU piv X) :
    mat n n x * mat n m X = mat n m y := by
  obtain ⟨h1, h2⟩ := h
  unfold IsLUSol at hX
  rw [← h1, Matrix.mul_assoc] at hX
  obtain ⟨u, hu⟩ := h2
  rw [← hu] at hX
  have := congrArg (fun M => (↑u⁻¹ : Matrix (Fin n) (Fin n) ℂ) * M) hX
  simpa [← Matrix.mul_assoc] using this

/-- **C131** `lu` or `linalg_lu_factor`: the packed factors get the unit of the matrix, the pivots none. -/
theorem C131_lu (σ : SetOrder) (k : ℕ) (name : String) (hname : name ∈ ["lu", "linalg_lu_factor"]) (F : Kernel T)
    (a : Leaf T) (x LU piv : T) (hx : a.Stores x)
    (hF : F (some x :: List.replicate k none) = .ok [(LU, true), (piv, false)]) :
    torchCall σ name F ([a] :: List.replicate k [.other]) = .ok [.q LU a.getUnit, .bare piv] := by
  have h : ∀ s ∈ ["lu", "linalg_lu_factor"], famOf s = .eig ∧ forbidden.contains s = false := by decide +kernel
  obtain ⟨h1, h2⟩ := h name hname
  rw [call1 σ (f := .eig) h1 rfl h2 rfl F a x hx k _ hF]
  simp [Fam.spec, RetSpec.expand, resolveAll, Ret.resolve, PyDict.get?, bind, Except.bind, pure,
    Except.pure, post, Except.map]

/-- **C131** `lu_solve(b, *lu(A))` and `linalg_lu_solve(*linalg_lu_factor(A), b)` solve the equation between what is
measured. -/
theorem C131_lu_solve (σ : SetOrder) (n m k : ℕ) (F : Kernel T) (perm : T → Matrix (Fin n) (Fin n) ℂ) (a b : Leaf T)
    (ha : a.Ok) (hb : b.Ok) {A B : T} (hA : a.si = some A) (hB : b.si = some B) (x y LU piv X : T) (hx : a.Stores x)
    (hy : b.Stores y) (hlu : IsLU perm (mat n n x) LU piv) (hX : IsLUSol (m := m) perm y LU piv X) :
    ∃ w, HasUnit w (b.getUnit.value / a.getUnit.value) (fun d => b.dim d - a.dim d) ∧
      mat n n A * mat n m (w.value • X) = mat n m B ∧
      (F (some y :: some LU :: some piv :: List.replicate k none) = .ok [(X, true)] →
        torchCall σ "lu_solve" F ([b] :: [.q LU a.getUnit] :: [.num piv] :: List.replicate k [.other]) =
          .ok [.q X w]) ∧
      (F (some LU :: some piv :: some y :: List.replicate k none) = .ok [(X, true)] →
        torchCall σ "linalg_lu_solve" F ([.q LU a.getUnit] :: [.num piv] :: [b] :: List.replicate k [.other]) =
          .ok [.q X w]) := by
  obtain ⟨w, h1, h2⟩ := div_unit σ hb ha
  have hy' : b.raw = .ok (some y) := hy
  have e1 : (Leaf.q LU a.getUnit : Leaf T).raw = .ok (some LU) := rfl
  have e2 : (Leaf.num piv : Leaf T).raw = .ok (some piv) := rfl
  have e3 : (Leaf.q LU a.getUnit : Leaf T).getUnit = a.getUnit := rfl
  refine ⟨w, h2, ?_, ?_, ?_⟩
  · rw [stores_si' hx hA, stores_si' hy hB, h2.1, mat_smul, mat_smul, mat_smul, Matrix.smul_mul, Matrix.mul_smul,
      smul_smul, luSol_solves hlu hX, mul_div_cancel₀ _ (getUnit_pos ha).ne']
  · intro hF
    rw [torchCall_dimSpec (f := .luSolve) F _ (by decide +kernel) rfl (by decide +kernel),
      pairs_opts3 .luSolve _ _ _ rfl]
    simp [call, run, step, get?_nil, get?_set', run_opts, raws_opts, convert_dimless, bind, Except.bind, pure, Except.pure,
      raws, hy', e1, e2, hF, Fam.spec, RetSpec.expand, resolveAll, Ret.resolve, UE.eval, U1, U2, h1, liftErr, post,
      e3]
  · intro hF
    rw [torchCall_dimSpec (f := .linLuSolve) F _ (by decide +kernel) rfl (by decide +kernel),
      pairs_opts3 .linLuSolve _ _ _ rfl]
    simp [call, run, step, get?_nil, get?_set', run_opts, raws_opts, convert_dimless, bind, Except.bind, pure, Except.pure,
      raws, hy', e1, e2, hF, Fam.spec, RetSpec.expand, resolveAll, Ret.resolve, UE.eval, U1, U2, h1, liftErr, post,
      e3]

/-- **C131** `lu_unpack(*lu(A))`: permutation and `L` have no unit, `U` that of `A`, and their product measures `A`. -/
theorem C131_lu_unpack (σ : SetOrder) (n k : ℕ) (F : Kernel T) (a : Leaf T) {A : T} (hA : a.si = some A)
    (x LU piv Pm L R : T) (hx : a.Stores x)
    (hF : F (some LU :: some piv :: List.replicate k none) = .ok [(Pm, true), (L, true), (R, true)])
    (hlu : mat n n Pm * mat n n L * mat n n R = mat n n x) :
    torchCall σ "lu_unpack" F ([.q LU a.getUnit] :: [.num piv] :: List.replicate k [.other]) =
        .ok [.bare Pm, .bare L, .q R a.getUnit] ∧
      mat n n Pm * mat n n L * mat n n (a.getUnit.value • R) = mat n n A := by
  constructor
  · rw [torchCall_dimSpec (f := .luUnpack) F _ (by decide +kernel) rfl (by decide +kernel),
      pairs_lu2 .luUnpack _ _ rfl]
    simp [call, run, step, get?_nil, get?_set', run_opts, raws_opts, convert_dimless, bind, Except.bind, pure, Except.pure,
      raws, Leaf.raw, hF, Fam.spec, RetSpec.expand, resolveAll, Ret.resolve, post, Leaf.getUnit]
  · rw [stores_si' hx hA, mat_smul, mat_smul, Matrix.mul_smul, hlu]

theorem upper_smul {n : ℕ} (c : ℝ) (P : Matrix (Fin n) (Fin n) ℂ) : upperOf (c • P) = c • upperOf P := by
  ext i j
  simp only [upperOf, Matrix.smul_apply]
  split <;> simp

theorem lower_smul {n : ℕ} (c : ℝ) (P : Matrix (Fin n) (Fin n) ℂ) :
    lowerOf (c • P) = 1 + c • (lowerOf P - 1) := by
  ext i j
  simp only [lowerOf, Matrix.smul_apply, Matrix.add_apply, Matrix.sub_apply, Matrix.one_apply]
  split
  · simp
  · split <;> simp

/-- **C131** is false of the packed factors themselves: they hold the dimensionless `L` below the diagonal, but are one
quantity with the unit of the matrix. Expressing them in another unit (by a factor `c` different from 0 and 1) destroys
the factorisation whenever `L` is not the identity and the matrix is invertible. -/
theorem C131_packed_lu_not_convertible {n : ℕ} (P : Matrix (Fin n) (Fin n) ℂ) (hU : IsUnit (upperOf P))
    (hL : lowerOf P ≠ 1) (c : ℝ) (h0 : c ≠ 0) (h1 : c ≠ 1) :
    lowerOf (c • P) * upperOf (c • P) ≠ c • (lowerOf P * upperOf P) := by
  intro h
  rw [upper_smul, lower_smul, Matrix.mul_smul] at h
  have h2 : (1 + c • (lowerOf P - 1)) * upperOf P = lowerOf P * upperOf P := by
    have := congrArg (fun M => c⁻¹ • M) h
    simpa [smul_smul, inv_mul_cancel₀ h0] using this
  have h3 : (c - 1) • ((lowerOf P - 1) * upperOf P) = 0 := by
    have : lowerOf P * upperOf P = (1 + (lowerOf P - 1)) * upperOf P := by congr 1; abel
    rw [this, Matrix.add_mul, Matrix.add_mul, Matrix.smul_mul] at h2
    rw [sub_smul, one_smul, sub_eq_zero]
    exact add_left_cancel h2
  have h4 : (lowerOf P - 1) * upperOf P = 0 := (smul_eq_zero.mp h3).resolve_left (sub_ne_zero.mpr h1)
  obtain ⟨u, hu⟩ := hU
  have h5 := congrArg (fun M => M * (↑u⁻¹ : Matrix (Fin n) (Fin n) ℂ)) h4
  simp only [← hu, Matrix.mul_assoc, Units.mul_inv, Matrix.mul_one, Matrix.zero_mul] at h5
  exact hL (sub_eq_zero.mp h5)

/-- **C131**, what a user sees of that: factors converted from the unit `u` to the unit `v` by `.to` make `lu_solve`
(with a correct kernel) return something that does not solve the equation, for some right-hand side. -/
theorem C131_lu_solve_converted_wrong (σ : SetOrder) (n : ℕ) (perm : T → Matrix (Fin n) (Fin n) ℂ) (x LU piv : T)
    (hlu : IsLU perm (mat n n x) LU piv) (hU : IsUnit (upperOf (mat n n LU))) (hL : lowerOf (mat n n LU) ≠ 1)
    (u v wb : Units.Unit) (huw : u.WF) (hvw : v.WF) (hbw : wb.WF) (hu : 0 < u.value) (hv : 0 < v.value)
    (hb : 0 < wb.value) (hdim : ∀ d, u.exp d = v.exp d) (hne : u.value ≠ v.value) :
    ∃ y X : T, QObj.to (fun (_ : Unit) z => z) ⟨LU, u, ()⟩ (some v) none =
        .ok (⟨LU, u, ()⟩, .q ⟨(u.value / v.value) • LU, v, ()⟩) ∧
      IsLUSol (m := 1) perm y ((u.value / v.value) • LU) piv X ∧
      ∀ F : Kernel T, F [some y, some ((u.value / v.value) • LU), some piv] = .ok [(X, true)] →
        ∃ w, torchCall σ "lu_solve" F [[.q y wb], [.q ((u.value / v.value) • LU) v], [.num piv]] = .ok [.q X w] ∧
          mat n n (u.value • x) * mat n 1 (w.value • X) ≠ mat n 1 (wb.value • y) := by
  set c : ℝ := u.value / v.value with hc
  have hc0 : c ≠ 0 := div_ne_zero hu.ne' hv.ne'
  have hc1 : c ≠ 1 := by rw [hc, ne_eq, div_eq_one_iff_eq hv.ne']; exact hne
  have hbad := C131_packed_lu_not_convertible (mat n n LU) hU hL c hc0 hc1
  -- a column on which the two products differ
  obtain ⟨i, j, hij⟩ : ∃ i j, (lowerOf (c • mat n n LU) * upperOf (c • mat n n LU)) i j ≠
      (c • (lowerOf (mat n n LU) * upperOf (mat n n LU))) i j := by
    by_contra hcon
    push Not at hcon
    exact hbad (Matrix.ext hcon)
  let X : T := fun a _ => if a = j then 1 else 0
  have hcol : ∀ M : Matrix (Fin n) (Fin n) ℂ, (M * mat n 1 X) i 0 = M i j := by
    intro M
    rw [Matrix.mul_apply, Finset.sum_eq_single j]
    · simp [mat, X]
    · intro b _ hbj
      have : (b : ℕ) ≠ (j : ℕ) := fun h => hbj (Fin.ext h)
      simp [mat, X, this]
    · simp
  obtain ⟨p, hp⟩ := hlu.2
  let Y : Matrix (Fin n) (Fin 1) ℂ := (↑p⁻¹ : Matrix (Fin n) (Fin n) ℂ) *
    (lowerOf (c • mat n n LU) * upperOf (c • mat n n LU) * mat n 1 X)
  let y : T := fun a b => if h : a < n ∧ b < 1 then Y ⟨a, h.1⟩ ⟨b, h.2⟩ else 0
  have hyY : mat n 1 y = Y := by
    ext a b
    simp only [mat, y]
    rw [dif_pos ⟨a.2, b.2⟩]
  have hpy : perm piv * mat n 1 y = lowerOf (c • mat n n LU) * upperOf (c • mat n n LU) * mat n 1 X := by
    rw [hyY, ← hp, ← Matrix.mul_assoc]
    simp
  refine ⟨y, X, ?_, ?_, ?_⟩
  · have hneq : ¬ u.eq v = true := by
      rw [Units.eq_iff huw hvw]
      rintro ⟨h, -⟩
      exact hne h
    have hto : u.to v = .ok c := by
      have hd : Units.dictEq u.dims v.dims = true := (dictEq_iff' huw hvw).mpr hdim
      simp [Units.Unit.to, hd, hv.ne', hc]
    simp [QObj.to, hneq, hto, liftErr, bind, Except.bind, pure, Except.pure]
  · unfold IsLUSol
    rw [mat_smul, hpy]
  · intro F hF
    obtain ⟨w, h1, -, h3, -⟩ := div_spec σ (u := wb) (v := v) hb hvw hv
    refine ⟨w, ?_, ?_⟩
    · rw [torchCall_dimSpec (f := .luSolve) F _ (by decide +kernel) rfl (by decide +kernel),
        pairs_three .luSolve _ _ _ _ _ _ rfl]
      simp [call, run, step, get?_nil, get?_set', convert_dimless, bind, Except.bind, pure, Except.pure,
        raws, Leaf.raw, hF, Fam.spec, RetSpec.expand, resolveAll, Ret.resolve, UE.eval, U1, U2, h1, liftErr, post,
        Leaf.getUnit]
    · intro h
      rw [mat_smul, mat_smul, mat_smul, Matrix.smul_mul, Matrix.mul_smul, smul_smul, h3] at h
      have h5 : c • (mat n n x * mat n 1 X) = mat n 1 y := by
        have := congrArg (fun M => wb.value⁻¹ • M) h
        simp only [smul_smul, inv_mul_cancel₀ hb.ne', one_smul] at this
        rw [← this]
        congr 1
        rw [hc]; field_simp
      have h6 := congrArg (fun M => perm piv * M) h5
      simp only [Matrix.mul_smul, ← Matrix.mul_assoc] at h6
      rw [hlu.1, hpy] at h6
      have h7 := congrFun (congrFun h6 i) 0
      rw [← Matrix.smul_mul, hcol, hcol] at h7
      exact hij h7.symm

/-! ### Determinant -/

/-- **C131** `det(A)`: the unit to the power of the size of the matrix. -/
theorem C131_det (n : ℕ) (x : T) (u : Units.Unit) (hu : (Leaf.q x u).Ok) :
    ∃ w, callDet (fun z => .ok ((fun _ _ => (mat n n z).det : T), true)) n (.q x u) =
        .ok (.q (fun _ _ => (mat n n x).det) w) ∧
      HasUnit w (u.value ^ n) (fun d => u.exp d * n) ∧
      w.value • (fun _ _ => (mat n n x).det : T) = fun _ _ => (mat n n (u.value • x)).det := by
  obtain ⟨w, h1, h2⟩ := pow_unit hu (n : ℚ)
  have h1' : u.pow (n : ℚ) = .ok w := h1
  have hv : w.value = u.value ^ n := by
    rw [h2.1]
    simp only [Leaf.getUnit, Rat.cast_natCast, Real.rpow_natCast]
  refine ⟨w, ?_, ⟨hv, h2.2⟩, ?_⟩
  · simp [callDet, h1', liftErr, bind, Except.bind, pure, Except.pure, post]
  · funext i j
    have : mat n n (u.value • x) = (u.value : ℂ) • mat n n x := by
      ext a b
      simp [mat]
    rw [this, Matrix.det_smul, Fintype.card_fin, hv]
    simp

/-! ### Functions without an entry -/

/-- Functions of `torch.linalg` (and one relative) under the names torch gives them; none has an entry. -/
def noEntry : List String :=
  ["linalg_inv", "linalg_inv_ex", "linalg_pinv", "linalg_det", "linalg_slogdet", "linalg_cholesky", "linalg_cholesky_ex",
   "linalg_qr", "linalg_eigh", "linalg_matrix_power", "linalg_matrix_exp", "linalg_cross", "linalg_vecdot",
   "linalg_solve_triangular", "linalg_tensorinv", "linalg_tensorsolve", "linalg_cond", "linalg_lu", "cosine_similarity"]

/-- **C131** is false of the functions of `torch.linalg` that have no entry: every output gets the unit of the first
argument, whatever the function and the other units. -/
theorem C131_no_entry (σ : SetOrder) (name : String) (hname : name ∈ noEntry) (F : Kernel T) (x : T) (u : Units.Unit)
    (rest : List (Leaf T)) (xs : List (Option T)) (hr : raws rest = .ok xs) (outs : List (T × Bool))
    (hF : F (some x :: xs) = .ok outs) (hfl : ∀ o ∈ outs, o.2 = true) :
    torchCall σ name F ([.q x u] :: rest.map fun a => [a]) = .ok (outs.map fun o => .q o.1 u) := by
  have h : ∀ n ∈ noEntry, famOf n = .default ∧ forbidden.contains n = false := by decide +kernel
  obtain ⟨h1, h2⟩ := h name hname
  have hfl' : ∀ l : List (Leaf T), (l.map fun a => [a]).flatten = l := by
    intro l
    induction l with
    | nil => rfl
    | cons a l ih => simp only [List.map_cons, List.flatten_cons, List.singleton_append, ih]
  unfold torchCall
  rw [h2, h1]
  simp only [Bool.false_eq_true, ↓reduceIte, List.flatten_cons, hfl', callDefault, List.singleton_append, raws, Leaf.raw, hr,
    bind, Except.bind, pure, Except.pure, hF]
  congr 1
  apply List.map_congr_left
  intro o ho
  simp [post, hfl o ho]

/-- **C131**, so for every function of one of these names that is homogeneous of a degree other than 1 (`linalg.inv`:
-1, `linalg.cholesky`: 1/2, `linalg.det`: the size, `linalg.cond`: 0, ...) the result is wrong in every unit whose
value is not 1, unless it is zero. -/
theorem C131_no_entry_wrong (σ : SetOrder) (name : String) (hname : name ∈ noEntry) (f : T → T) (p : ℝ) (hp : p ≠ 1)
    (hf : ∀ (c : ℝ) z, 0 < c → f (c • z) = c ^ p • f z) (x : T) (hx : f x ≠ 0) (u : Units.Unit) (hu : 0 < u.value)
    (h1 : u.value ≠ 1) :
    torchCall σ name (k1 f) [[.q x u]] = .ok [.q (f x) u] ∧ u.value • f x ≠ f (u.value • x) := by
  constructor
  · have := C131_no_entry σ name hname (k1 f) x u [] [] rfl [(f x, true)] rfl (by simp)
    simpa using this
  · rw [hf _ _ hu]
    intro h
    have h2 : (u.value - u.value ^ p) • f x = 0 := by rw [sub_smul, h, sub_self]
    rcases smul_eq_zero.mp h2 with h3 | h3
    · have h4 : u.value ^ p = u.value ^ (1 : ℝ) := by rw [Real.rpow_one]; linarith
      exact hp ((Real.rpow_right_inj hu h1).mp h4)
    · exact hx h3

/-- `linalg.inv` of the 1 x 1 matrix (2 km) is 0.5 km. -/
example (σ : SetOrder) : ∃ r, torchCall (V := T) σ "linalg_inv" (k1 fun z i j => (z i j)⁻¹)
      [[.q (fun _ _ => 2) ⟨[("L", 1)], 1000⟩]] = .ok [.q r ⟨[("L", 1)], 1000⟩] ∧ r 0 0 = 2⁻¹ := by
  have := (C131_no_entry_wrong σ "linalg_inv" (by decide) (fun z i j => (z i j)⁻¹) (-1) (by norm_num) (by
    intro c z hc
    funext i j
    simp [Real.rpow_neg_one, mul_comm]) (fun _ _ => 2) (by
      intro h
      have := congrFun (congrFun h 0) 0
      simp at this) ⟨[("L", 1)], 1000⟩ (by norm_num) (by norm_num)).1
  exact ⟨_, this, rfl⟩

/-- `inverse` of the same matrix is 0.5 / km: the hypotheses of `C131_inverse` are met. -/
example (σ : SetOrder) : ∃ w, torchCall (V := T) σ "inverse" (k1 fun z i j => (z i j)⁻¹)
      [[.q (fun _ _ => 2) ⟨[("L", 1)], 1000⟩]] = .ok [.q (fun _ _ => 2⁻¹) w] ∧ w.value = 1000⁻¹ := by
  obtain ⟨w, h1, h2, -⟩ := C131_inverse σ 1 0 (k1 fun z i j => (z i j)⁻¹) (.q (fun _ _ => 2) ⟨[("L", 1)], 1000⟩)
    ⟨by constructor <;> simp, by norm_num⟩ rfl (fun _ _ => 2) (fun _ _ => 2⁻¹) rfl rfl (by
      ext i j
      have hi : i = 0 := Subsingleton.elim _ _
      have hj : j = 0 := Subsingleton.elim _ _
      subst hi hj
      simp [Matrix.mul_apply, mat])
  exact ⟨w, h1, h2.1⟩

/-- A packed LU factorisation with `L` not the identity: the matrix ((1, 0), (1, 1)). -/
example : IsLU (fun _ => 1) (mat 2 2 fun i j => if j ≤ i then 1 else 0) (fun i j => if j ≤ i then 1 else 0)
      (fun _ _ => 0) ∧ IsUnit (upperOf (mat 2 2 fun i j => if j ≤ i then 1 else 0)) ∧
    lowerOf (mat 2 2 fun i j => if j ≤ i then 1 else 0) ≠ 1 := by
  refine ⟨⟨?_, isUnit_one⟩, ?_, ?_⟩
  · ext i j
    fin_cases i <;> fin_cases j <;>
      simp [Matrix.mul_apply, Fin.sum_univ_two, mat, lowerOf, upperOf]
  · rw [Matrix.isUnit_iff_isUnit_det, Matrix.det_fin_two]
    simp [mat, upperOf]
  · intro h
    have := congrFun (congrFun h 1) 0
    simp [mat, lowerOf] at this

/-- The matrix ((1, 0), (1, 1)): its packed LU factorisation without pivoting is itself. -/
def tri : T := fun i j => if j ≤ i then 1 else 0

theorem tri_LU : IsLU (fun _ => 1) (mat 2 2 tri) tri (fun _ _ => 0) ∧ IsUnit (upperOf (mat 2 2 tri)) ∧ lowerOf (mat 2 2 tri) ≠ 1 := by
  refine ⟨⟨?_, isUnit_one⟩, ?_, ?_⟩
  · ext i j
    fin_cases i <;> fin_cases j <;>
      simp [Matrix.mul_apply, Fin.sum_univ_two, mat, lowerOf, upperOf, tri]
  · rw [Matrix.isUnit_iff_isUnit_det, Matrix.det_fin_two]
    simp [mat, upperOf, tri]
  · intro h
    have := congrFun (congrFun h 1) 0
    simp [mat, lowerOf, tri] at this

/-- `C131_lu`, `C131_lu_solve`, `C131_lu_unpack`, `C131_packed_lu_not_convertible`, `C131_lu_solve_converted_wrong`,
`C131_det`, `C131_no_entry` for it, in kilometres. -/
example (σ : SetOrder) := C131_lu σ 0 "lu" (by simp) (kc [(tri, true), (fun _ _ => 0, false)]) (.q tri exKm) tri tri (fun _ _ => 0) rfl rfl
example (σ : SetOrder) := C131_lu_solve σ 2 1 0 (kc [(fun i _ => if i = 0 then 3 else 4, true)]) (fun _ => 1) (.q tri exKm)
  (.q (fun i _ => if i = 0 then 3 else 7) exHour) exKm_ok exHour_ok rfl rfl tri (fun i _ => if i = 0 then 3 else 7) tri (fun _ _ => 0)
  (fun i _ => if i = 0 then 3 else 4) rfl rfl tri_LU.1 (by
    unfold IsLUSol
    ext i j
    fin_cases i <;> fin_cases j <;>
      (simp [Matrix.mul_apply, Fin.sum_univ_two, mat, lowerOf, upperOf, tri]; try norm_num))
example (σ : SetOrder) := C131_lu_unpack σ 2 0 (kc [(dg 1 1, true), (tri, true), (dg 1 1, true)]) (.q tri exKm) rfl tri tri (fun _ _ => 0)
  (dg 1 1) tri (dg 1 1) rfl rfl (by rw [dg_one, Matrix.one_mul, Matrix.mul_one])
example := C131_packed_lu_not_convertible (mat 2 2 tri) tri_LU.2.1 tri_LU.2.2 1000 (by norm_num) (by norm_num)
example (σ : SetOrder) := C131_lu_solve_converted_wrong σ 2 (fun _ => 1) tri tri (fun _ _ => 0) tri_LU.1 tri_LU.2.1 tri_LU.2.2
  exKm exM exHour exKm_ok.1 exM_ok.1 exHour_ok.1 exKm_ok.2 exM_ok.2 exHour_ok.2 (fun _ => rfl) (by norm_num [exKm, exM])
example := C131_det 2 tri exKm exKm_ok
example (σ : SetOrder) := C131_no_entry σ "linalg_inv" (by decide) (kc [(tri, true)]) tri exKm [] [] rfl [(tri, true)] rfl (by simp)

end Verif.Quant.LinAlg
