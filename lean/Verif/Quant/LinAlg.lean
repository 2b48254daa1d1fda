import Verif.Quant.Props
import Verif.Quant.LinAlgModel
import Mathlib.LinearAlgebra.Matrix.NonsingularInverse
import Mathlib.LinearAlgebra.Matrix.Block
import Mathlib.LinearAlgebra.Matrix.ConjTranspose
import Mathlib.Analysis.Complex.Basic

/-! # C131: linear algebra on quantities -/

namespace Verif.Quant.LinAlg

open Verif.Units (SetOrder)
open Matrix

/-! ### Specification -/

/-- Contents of a (real or complex) tensor of at most two dimensions. -/
abbrev T := ℕ → ℕ → ℂ

/-- The tensor as an `n` by `m` matrix. -/
def mat (n m : ℕ) (x : T) : Matrix (Fin n) (Fin m) ℂ := fun i j => x i j

/-- The tensor as a vector of length `n`. -/
def vec (n : ℕ) (x : T) : Fin n → ℂ := fun i => x 0 i

/-- Lower triangular. -/
def Lower {n : ℕ} (L : Matrix (Fin n) (Fin n) ℂ) : Prop := ∀ i j, i < j → L i j = 0

/-- Upper triangular (trapezoidal). -/
def Upper {n m : ℕ} (R : Matrix (Fin n) (Fin m) ℂ) : Prop := ∀ (i : Fin n) (j : Fin m), (j : ℕ) < i → R i j = 0

/-- The four conditions of the pseudoinverse. -/
def IsPinv {n m : ℕ} (A : Matrix (Fin n) (Fin m) ℂ) (X : Matrix (Fin m) (Fin n) ℂ) : Prop :=
  A * X * A = A ∧ X * A * X = X ∧ (A * X)ᴴ = A * X ∧ (X * A)ᴴ = X * A

/-- `L` is the Cholesky factor of `A`. -/
def IsChol {n : ℕ} (A L : Matrix (Fin n) (Fin n) ℂ) : Prop := Lower L ∧ L * Lᴴ = A

/-- `A = Q R` with orthonormal columns in `Q`. -/
def IsQR {n k m : ℕ} (A : Matrix (Fin n) (Fin m) ℂ) (Q : Matrix (Fin n) (Fin k) ℂ) (R : Matrix (Fin k) (Fin m) ℂ) :
    Prop := Qᴴ * Q = 1 ∧ Upper R ∧ Q * R = A

/-- `A = W diag(s) Z^H` with orthonormal columns in `W` and `Z`, and `s >= 0`. -/
def IsSVD {n k m : ℕ} (A : Matrix (Fin n) (Fin m) ℂ) (W : Matrix (Fin n) (Fin k) ℂ) (s : Fin k → ℂ)
    (Z : Matrix (Fin m) (Fin k) ℂ) : Prop :=
  Wᴴ * W = 1 ∧ Zᴴ * Z = 1 ∧ (∀ i, ∃ t : ℝ, 0 ≤ t ∧ s i = t) ∧ W * diagonal s * Zᴴ = A

/-- The unit lower triangular factor stored in a packed LU factorisation. -/
def lowerOf {n : ℕ} (P : Matrix (Fin n) (Fin n) ℂ) : Matrix (Fin n) (Fin n) ℂ := fun i j =>
  if i = j then 1 else if j < i then P i j else 0

/-- The upper triangular factor stored in a packed LU factorisation. -/
def upperOf {n : ℕ} (P : Matrix (Fin n) (Fin n) ℂ) : Matrix (Fin n) (Fin n) ℂ := fun i j =>
  if j < i then 0 else P i j

/-- The unit `w` has value `c` and exponents `e` (rounded to denominators up to a million, as always). -/
def HasUnit (w : Units.Unit) (c : ℝ) (e : Units.Dim → ℚ) : Prop :=
  w.value = c ∧ ∀ k, w.exp k = Units.limDen (e k)

/-! ### Lemmas -/

theorem mat_smul (n m : ℕ) (c : ℝ) (x : T) : mat n m (c • x) = c • mat n m x := rfl
theorem vec_smul (n : ℕ) (c : ℝ) (x : T) : vec n (c • x) = c • vec n x := rfl

theorem conj_smul {n m : ℕ} (c : ℝ) (A : Matrix (Fin n) (Fin m) ℂ) : (c • A)ᴴ = c • Aᴴ := by
  ext i j
  simp [conjTranspose_apply]

theorem diagonal_smul' {n : ℕ} (c : ℝ) (s : Fin n → ℂ) : diagonal (c • s) = c • diagonal s := by
  rw [← diagonal_smul]

theorem pairs_opts1 (f : Fam) (hf : f.spec.1 = .list [.name "unit"]) (a : Leaf T) (k : ℕ) :
    pairs f ([a] :: List.replicate k [.other]) = (.name "unit", a) :: List.replicate k (.skip, .other) := by
  have h : f.spec.1.pad ([a] :: List.replicate k [.other]).length = .name "unit" :: List.replicate k .skip := by
    rw [hf]; simp [Params.pad]
  rw [pairs, h]
  simp only [List.zip_cons_cons, List.map_cons, List.flatten_cons, List.map_nil, List.singleton_append]
  congr 1
  clear h
  induction k with
  | zero => rfl
  | succ k ih => simp [List.replicate_succ, ih]

theorem pairs_opts2 (f : Fam) (hf : f.spec.1 = .list [.name "unit1", .name "unit2"]) (a b : Leaf T) (k : ℕ) :
    pairs f ([a] :: [b] :: List.replicate k [.other]) =
      (.name "unit1", a) :: (.name "unit2", b) :: List.replicate k (.skip, .other) := by
  have h : f.spec.1.pad ([a] :: [b] :: List.replicate k [.other]).length =
      .name "unit1" :: .name "unit2" :: List.replicate k .skip := by
    rw [hf]
    simp only [Params.pad, List.length_cons, List.length_replicate, List.cons_append, List.nil_append,
      List.take_succ_cons, List.take_replicate]
    congr 3; omega
  rw [pairs, h]
  simp only [List.zip_cons_cons, List.map_cons, List.flatten_cons, List.map_nil, List.singleton_append]
  congr 2
  clear h
  induction k with
  | zero => rfl
  | succ k ih => simp [List.replicate_succ, ih]

theorem run_opts (σ : SetOrder) (ctx : Ctx) (k : ℕ) :
    run (V := T) σ ctx (List.replicate k (.skip, .other)) = .ok (ctx, List.replicate k .other) := by
  induction k with
  | zero => rfl
  | succ k ih => simp [List.replicate_succ, run, step, ih, bind, Except.bind, pure, Except.pure]

theorem raws_opts (k : ℕ) : raws (V := T) (List.replicate k .other) = .ok (List.replicate k none) := by
  induction k with
  | zero => rfl
  | succ k ih => simp [List.replicate_succ, raws, Leaf.raw, ih, bind, Except.bind, pure, Except.pure]

/-- A call of a function with one tensor argument and non-numeric options. -/
theorem call1 (σ : SetOrder) {name : String} {f : Fam} (hname : famOf name = f) (hd : f.isDimSpec = true)
    (hn : forbidden.contains name = false) (hs : f.spec.1 = .list [.name "unit"]) (F : Kernel T) (a : Leaf T) (x : T)
    (ha : a.Stores x) (k : ℕ) (outs : List (T × Bool)) (hF : F (some x :: List.replicate k none) = .ok outs) :
    torchCall σ name F ([a] :: List.replicate k [.other]) =
      (resolveAll σ [("unit", a.getUnit)] (f.spec.2.expand outs.length)).map fun us => List.zipWith post us outs := by
  have ha' : a.raw = .ok (some x) := ha
  rw [torchCall_dimSpec F _ hname hd hn, pairs_opts1 f hs]
  simp only [call, run, step, get?_nil, run_opts, bind, Except.bind, pure, Except.pure, raws, ha', raws_opts, hF]
  simp only [PyDict.set]
  cases resolveAll σ [("unit", a.getUnit)] (f.spec.2.expand outs.length) <;> rfl

/-- A call of a function with two tensor arguments and non-numeric options. -/
theorem call2 (σ : SetOrder) {name : String} {f : Fam} (hname : famOf name = f) (hd : f.isDimSpec = true)
    (hn : forbidden.contains name = false) (hs : f.spec.1 = .list [.name "unit1", .name "unit2"]) (F : Kernel T)
    (a b : Leaf T) (x y : T) (ha : a.Stores x) (hb : b.Stores y) (k : ℕ) (outs : List (T × Bool))
    (hF : F (some x :: some y :: List.replicate k none) = .ok outs) :
    torchCall σ name F ([a] :: [b] :: List.replicate k [.other]) =
      (resolveAll σ [("unit1", a.getUnit), ("unit2", b.getUnit)] (f.spec.2.expand outs.length)).map
        fun us => List.zipWith post us outs := by
  have ha' : a.raw = .ok (some x) := ha
  have hb' : b.raw = .ok (some y) := hb
  have hset : PyDict.set (PyDict.set ([] : Ctx) "unit1" a.getUnit) "unit2" b.getUnit =
      [("unit1", a.getUnit), ("unit2", b.getUnit)] := by
    simp [PyDict.set]
  have hget : PyDict.get? (PyDict.set ([] : Ctx) "unit1" a.getUnit) "unit2" = none := by
    simp [PyDict.set, PyDict.get?]
  rw [torchCall_dimSpec F _ hname hd hn, pairs_opts2 f hs]
  simp only [call, run, step, get?_nil, hget, run_opts, bind, Except.bind, pure, Except.pure, raws, ha', hb', raws_opts,
    hF, hset]
  cases resolveAll σ [("unit1", a.getUnit), ("unit2", b.getUnit)] (f.spec.2.expand outs.length) <;> rfl

theorem stores_si' {a : Leaf T} {x : T} (h : a.Stores x) {A : T} (hA : a.si = some A) : A = a.getUnit.value • x := by
  rw [stores_si h] at hA
  exact (Option.some.inj hA).symm

theorem pow_unit {a : Leaf T} (ha : a.Ok) (p : ℚ) : ∃ w, a.getUnit.pow p = .ok w ∧
    HasUnit w (a.getUnit.value ^ (p : ℝ)) fun k => a.dim k * p := by
  refine ⟨_, Units.pow_eq_of_pos (getUnit_pos ha) p, rfl, fun k => ?_⟩
  show _ = Units.limDen (a.dim k * p)
  rw [← getUnit_exp]
  exact Units.dget_dpow (Units.wf_iff.mp (getUnit_wf ha)) p k

theorem inv_unit {a : Leaf T} (ha : a.Ok) : ∃ w, a.getUnit.inv = .ok w ∧
    HasUnit w (a.getUnit.value)⁻¹ fun k => -a.dim k := by
  refine ⟨_, Units.inv_eq (getUnit_pos ha).ne', by simp, fun k => ?_⟩
  show _ = Units.limDen (-a.dim k)
  rw [← getUnit_exp]
  have hw := Units.wf_iff.mp (getUnit_wf ha)
  show Units.dget (Units.dinv a.getUnit.dims) k = _
  rw [Units.dget_dinv hw k, Units.limDen_of_le]
  · rfl
  · rw [Rat.den_neg_eq_den]; exact Units.dget_den_le hw k

theorem div_unit (σ : SetOrder) {a b : Leaf T} (ha : a.Ok) (hb : b.Ok) : ∃ w, a.getUnit.div σ b.getUnit = .ok w ∧
    HasUnit w (a.getUnit.value / b.getUnit.value) fun k => a.dim k - b.dim k := by
  obtain ⟨w, h1, -, h3, -, h5⟩ := alpha_unit σ ha hb
  exact ⟨w, h1, h3, h5⟩

/-! ### C131: positive part -/

/-- **C131** `linalg_solve(A, B)`: whatever solution the kernel finds for the stored numbers, the result has the unit
of `B` over that of `A` and solves the equation between what is measured. -/
theorem C131_solve (σ : SetOrder) (n m k : ℕ) (F : Kernel T) (a b : Leaf T) (ha : a.Ok) (hb : b.Ok) {A B : T}
    (hA : a.si = some A) (hB : b.si = some B) (x y X : T) (hx : a.Stores x) (hy : b.Stores y)
    (hF : F (some x :: some y :: List.replicate k none) = .ok [(X, true)]) (hX : mat n n x * mat n m X = mat n m y) :
    ∃ w, torchCall σ "linalg_solve" F ([a] :: [b] :: List.replicate k [.other]) = .ok [.q X w] ∧
      HasUnit w (b.getUnit.value / a.getUnit.value) (fun d => b.dim d - a.dim d) ∧
      mat n n A * mat n m (w.value • X) = mat n m B := by
  obtain ⟨w, h1, h2⟩ := div_unit σ hb ha
  refine ⟨w, ?_, h2, ?_⟩
  · rw [call2 σ (f := .linSolve) (by decide +kernel) rfl (by decide +kernel) rfl F a b x y hx hy k _ hF]
    simp [Fam.spec, RetSpec.expand, resolveAll, Ret.resolve, UE.eval, U1, U2, PyDict.get?, bind, Except.bind, pure,
      Except.pure, h1, liftErr, post, Except.map]
  · rw [stores_si' hx hA, stores_si' hy hB, h2.1, mat_smul, mat_smul, mat_smul, Matrix.smul_mul, Matrix.mul_smul, smul_smul, hX,
      mul_div_cancel₀ _ (getUnit_pos ha).ne']

/-- **C131** `triangular_solve(b, A)`: the solution, and a copy of `A` in its own unit. -/
theorem C131_triangular_solve (σ : SetOrder) (n m k : ℕ) (F : Kernel T) (b a : Leaf T) (hb : b.Ok) (ha : a.Ok) {A B : T}
    (hA : a.si = some A) (hB : b.si = some B) (x y X : T) (hx : a.Stores x) (hy : b.Stores y)
    (hF : F (some y :: some x :: List.replicate k none) = .ok [(X, true), (x, true)])
    (hX : mat n n x * mat n m X = mat n m y) :
    ∃ w, torchCall σ "triangular_solve" F ([b] :: [a] :: List.replicate k [.other]) =
        .ok [.q X w, .q x a.getUnit] ∧
      HasUnit w (b.getUnit.value / a.getUnit.value) (fun d => b.dim d - a.dim d) ∧
      mat n n A * mat n m (w.value • X) = mat n m B ∧ a.getUnit.value • x = A := by
  obtain ⟨w, h1, h2⟩ := div_unit σ hb ha
  refine ⟨w, ?_, h2, ?_, (stores_si' hx hA).symm⟩
  · rw [call2 σ (f := .triSolve) (by decide +kernel) rfl (by decide +kernel) rfl F b a y x hy hx k _ hF]
    simp [Fam.spec, RetSpec.expand, resolveAll, Ret.resolve, UE.eval, U1, U2, PyDict.get?, bind, Except.bind, pure,
      Except.pure, h1, liftErr, post, Except.map]
  · rw [stores_si' hx hA, stores_si' hy hB, h2.1, mat_smul, mat_smul, mat_smul, Matrix.smul_mul, Matrix.mul_smul, smul_smul, hX,
      mul_div_cancel₀ _ (getUnit_pos ha).ne']

/-- **C131** `inverse(A)`. -/
theorem C131_inverse (σ : SetOrder) (n k : ℕ) (F : Kernel T) (a : Leaf T) (ha : a.Ok) {A : T} (hA : a.si = some A)
    (x X : T) (hx : a.Stores x) (hF : F (some x :: List.replicate k none) = .ok [(X, true)])
    (hX : mat n n x * mat n n X = 1) :
    ∃ w, torchCall σ "inverse" F ([a] :: List.replicate k [.other]) = .ok [.q X w] ∧
      HasUnit w (a.getUnit.value)⁻¹ (fun d => -a.dim d) ∧ mat n n A * mat n n (w.value • X) = 1 := by
  obtain ⟨w, h1, h2⟩ := inv_unit ha
  refine ⟨w, ?_, h2, ?_⟩
  · rw [call1 σ (f := .inv) (by decide +kernel) rfl (by decide +kernel) rfl F a x hx k _ hF]
    simp [Fam.spec, RetSpec.expand, resolveAll, Ret.resolve, UE.eval, U, PyDict.get?, bind, Except.bind, pure,
      Except.pure, h1, liftErr, post, Except.map]
  · rw [stores_si' hx hA, h2.1, mat_smul, mat_smul, Matrix.smul_mul, Matrix.mul_smul, smul_smul, hX,
      mul_inv_cancel₀ (getUnit_pos ha).ne', one_smul]

/-- **C131** `pinverse(A)`: the four conditions hold for what is measured. -/
theorem C131_pinverse (σ : SetOrder) (n m k : ℕ) (F : Kernel T) (a : Leaf T) (ha : a.Ok) {A : T} (hA : a.si = some A)
    (x X : T) (hx : a.Stores x) (hF : F (some x :: List.replicate k none) = .ok [(X, true)])
    (hX : IsPinv (mat n m x) (mat m n X)) :
    ∃ w, torchCall σ "pinverse" F ([a] :: List.replicate k [.other]) = .ok [.q X w] ∧
      HasUnit w (a.getUnit.value)⁻¹ (fun d => -a.dim d) ∧ IsPinv (mat n m A) (mat m n (w.value • X)) := by
  obtain ⟨w, h1, h2⟩ := inv_unit ha
  have hp := (getUnit_pos ha).ne'
  refine ⟨w, ?_, h2, ?_⟩
  · rw [call1 σ (f := .inv) (by decide +kernel) rfl (by decide +kernel) rfl F a x hx k _ hF]
    simp [Fam.spec, RetSpec.expand, resolveAll, Ret.resolve, UE.eval, U, PyDict.get?, bind, Except.bind, pure,
      Except.pure, h1, liftErr, post, Except.map]
  · obtain ⟨e1, e2, e3, e4⟩ := hX
    rw [stores_si' hx hA, h2.1, mat_smul, mat_smul]
    generalize a.getUnit.value = c at hp
    have h3 : (c • mat n m x) * (c⁻¹ • mat m n X) = mat n m x * mat m n X := by
      rw [Matrix.smul_mul, Matrix.mul_smul, smul_smul, mul_inv_cancel₀ hp, one_smul]
    have h4 : (c⁻¹ • mat m n X) * (c • mat n m x) = mat m n X * mat n m x := by
      rw [Matrix.smul_mul, Matrix.mul_smul, smul_smul, inv_mul_cancel₀ hp, one_smul]
    refine ⟨?_, ?_, ?_, ?_⟩
    · rw [h3, Matrix.mul_smul, e1]
    · rw [h4, Matrix.mul_smul, e2]
    · rw [h3, e3]
    · rw [h4, e4]

/-- **C131** `cholesky(A)`: the factor has the square root of the unit. -/
theorem C131_cholesky (σ : SetOrder) (n k : ℕ) (F : Kernel T) (a : Leaf T) (ha : a.Ok) {A : T} (hA : a.si = some A)
    (x L : T) (hx : a.Stores x) (hF : F (some x :: List.replicate k none) = .ok [(L, true)])
    (hL : IsChol (mat n n x) (mat n n L)) :
    ∃ w, torchCall σ "cholesky" F ([a] :: List.replicate k [.other]) = .ok [.q L w] ∧
      HasUnit w (Real.sqrt a.getUnit.value) (fun d => a.dim d / 2) ∧ IsChol (mat n n A) (mat n n (w.value • L)) := by
  obtain ⟨w, h1, h2⟩ := pow_unit ha (1 / 2)
  have hw : w.value = Real.sqrt a.getUnit.value := by rw [h2.1, Real.sqrt_eq_rpow]; norm_num
  refine ⟨w, ?_, ⟨hw, fun d => ?_⟩, ?_, ?_⟩
  · rw [call1 σ (f := .sqrt) (by decide +kernel) rfl (by decide +kernel) rfl F a x hx k _ hF]
    simp only [Fam.spec, RetSpec.expand, resolveAll, Ret.resolve, UE.eval, U, PyDict.get?, bind, Except.bind, pure,
      Except.pure, h1, liftErr, post, Except.map, List.length_cons, List.length_nil, List.replicate, ↓reduceIte,
      List.zipWith]
  · rw [h2.2 d]; congr 1; ring
  · intro i j hij
    have := hL.1 i j hij
    rw [mat_smul]
    show w.value • mat n n L i j = 0
    rw [this, smul_zero]
  · rw [stores_si' hx hA, mat_smul, mat_smul, conj_smul, Matrix.smul_mul, Matrix.mul_smul, smul_smul, hL.2, hw,
      Real.mul_self_sqrt (getUnit_pos ha).le]

/-- **C131** `cholesky_inverse(L)`: the inverse of `L L^H`. -/
theorem C131_cholesky_inverse (σ : SetOrder) (n k : ℕ) (F : Kernel T) (a : Leaf T) (ha : a.Ok) {A : T}
    (hA : a.si = some A) (x X : T) (hx : a.Stores x) (hF : F (some x :: List.replicate k none) = .ok [(X, true)])
    (hX : mat n n x * (mat n n x)ᴴ * mat n n X = 1) :
    ∃ w, torchCall σ "cholesky_inverse" F ([a] :: List.replicate k [.other]) = .ok [.q X w] ∧
      HasUnit w (a.getUnit.value ^ 2)⁻¹ (fun d => -2 * a.dim d) ∧
      mat n n A * (mat n n A)ᴴ * mat n n (w.value • X) = 1 := by
  obtain ⟨w, h1, h2⟩ := pow_unit ha (-2)
  have hp := getUnit_pos ha
  have hw : w.value = (a.getUnit.value ^ 2)⁻¹ := by
    rw [h2.1, ← Real.rpow_natCast, ← Real.rpow_neg hp.le]; norm_num
  refine ⟨w, ?_, ⟨hw, fun d => ?_⟩, ?_⟩
  · rw [call1 σ (f := .cholInv) (by decide +kernel) rfl (by decide +kernel) rfl F a x hx k _ hF]
    simp only [Fam.spec, RetSpec.expand, resolveAll, Ret.resolve, UE.eval, U, PyDict.get?, bind, Except.bind, pure,
      Except.pure, h1, liftErr, post, Except.map, List.length_cons, List.length_nil, List.replicate, ↓reduceIte,
      List.zipWith]
  · rw [h2.2 d]; congr 1; ring
  · rw [stores_si' hx hA]
    simp only [mat_smul, conj_smul, Matrix.smul_mul, Matrix.mul_smul, hX, hw, smul_smul]
    rw [show (a.getUnit.value ^ 2)⁻¹ * (a.getUnit.value * a.getUnit.value) = 1 by field_simp, one_smul]

/-- **C131** `cholesky_solve(b, L)`: the solution of `L L^H X = b`. -/
theorem C131_cholesky_solve (σ : SetOrder) (n m k : ℕ) (F : Kernel T) (b a : Leaf T) (hb : b.Ok) (ha : a.Ok) {A B : T}
    (hA : a.si = some A) (hB : b.si = some B) (x y X : T) (hx : a.Stores x) (hy : b.Stores y)
    (hF : F (some y :: some x :: List.replicate k none) = .ok [(X, true)])
    (hX : mat n n x * (mat n n x)ᴴ * mat n m X = mat n m y) :
    ∃ w, torchCall σ "cholesky_solve" F ([b] :: [a] :: List.replicate k [.other]) = .ok [.q X w] ∧
      HasUnit w (b.getUnit.value / a.getUnit.value ^ 2) (fun d => b.dim d + Units.limDen (-2 * a.dim d)) ∧
      mat n n A * (mat n n A)ᴴ * mat n m (w.value • X) = mat n m B := by
  obtain ⟨w, h1, h2⟩ := pow_unit ha (-2)
  have hp := getUnit_pos ha
  have hw : w.value = (a.getUnit.value ^ 2)⁻¹ := by
    rw [h2.1, ← Real.rpow_natCast, ← Real.rpow_neg hp.le]; norm_num
  have hv : (b.getUnit.mul σ w).value = b.getUnit.value / a.getUnit.value ^ 2 := by
    show b.getUnit.value * w.value = _
    rw [hw, div_eq_mul_inv]
  refine ⟨b.getUnit.mul σ w, ?_, ⟨hv, fun d => ?_⟩, ?_⟩
  · rw [call2 σ (f := .cholSolve) (by decide +kernel) rfl (by decide +kernel) rfl F b a y x hy hx k _ hF]
    simp [Fam.spec, RetSpec.expand, resolveAll, Ret.resolve, UE.eval, U1, U2, PyDict.get?, bind, Except.bind, pure,
      Except.pure, h1, liftErr, post, Except.map]
  · have := Units.dget_dmul σ b.getUnit.dims w.dims d
    show Units.dget (Units.dmul σ b.getUnit.dims w.dims) d = _
    show _ = Units.limDen (b.dim d + Units.limDen (-2 * a.dim d))
    rw [this, ← getUnit_exp (a := b)]
    have h3 := h2.2 d
    simp only [Units.Unit.exp] at h3 ⊢
    rw [h3]
    congr 3; ring
  · rw [stores_si' hx hA, stores_si' hy hB]
    simp only [mat_smul, conj_smul, Matrix.smul_mul, Matrix.mul_smul, hX, hv, smul_smul]
    congr 1; field_simp

/-- The functions of the table that return eigenvalues and eigenvectors. -/
def eigNames : List String := ["eig", "linalg_eig", "symeig"]

/-- **C131** `eig`, `linalg_eig`, `symeig`: eigenvalues have the unit of the matrix, eigenvectors none. -/
theorem C131_eig (σ : SetOrder) (n k : ℕ) (name : String) (hname : name ∈ eigNames) (F : Kernel T) (a : Leaf T)
    {A : T} (hA : a.si = some A) (x l v : T) (hx : a.Stores x)
    (hF : F (some x :: List.replicate k none) = .ok [(l, true), (v, true)])
    (hl : mat n n x * mat n n v = mat n n v * diagonal (vec n l)) :
    torchCall σ name F ([a] :: List.replicate k [.other]) = .ok [.q l a.getUnit, .bare v] ∧
      mat n n A * mat n n v = mat n n v * diagonal (vec n (a.getUnit.value • l)) := by
  have h : ∀ s ∈ eigNames, famOf s = .eig ∧ forbidden.contains s = false := by decide +kernel
  obtain ⟨h1, h2⟩ := h name hname
  constructor
  · rw [call1 σ (f := .eig) h1 rfl h2 rfl F a x hx k _ hF]
    simp [Fam.spec, RetSpec.expand, resolveAll, Ret.resolve, PyDict.get?, bind, Except.bind, pure,
      Except.pure, post, Except.map]
  · rw [stores_si' hx hA, mat_smul, vec_smul, diagonal_smul', Matrix.smul_mul, Matrix.mul_smul, hl]

/-- **C131** `qr`: `R` has the unit, `Q` none. -/
theorem C131_qr (σ : SetOrder) (n p m k : ℕ) (F : Kernel T) (a : Leaf T) {A : T} (hA : a.si = some A) (x Q R : T)
    (hx : a.Stores x) (hF : F (some x :: List.replicate k none) = .ok [(Q, true), (R, true)])
    (hqr : IsQR (mat n m x) (mat n p Q) (mat p m R)) :
    torchCall σ "qr" F ([a] :: List.replicate k [.other]) = .ok [.bare Q, .q R a.getUnit] ∧
      IsQR (mat n m A) (mat n p Q) (mat p m (a.getUnit.value • R)) := by
  constructor
  · rw [call1 σ (f := .qr) (by decide +kernel) rfl (by decide +kernel) rfl F a x hx k _ hF]
    simp [Fam.spec, RetSpec.expand, resolveAll, Ret.resolve, PyDict.get?, bind, Except.bind, pure,
      Except.pure, post, Except.map]
  · obtain ⟨h1, h2, h3⟩ := hqr
    refine ⟨h1, ?_, ?_⟩
    · intro i j hij
      rw [mat_smul]
      show a.getUnit.value • mat p m R i j = 0
      rw [h2 i j hij, smul_zero]
    · rw [stores_si' hx hA, mat_smul, mat_smul, Matrix.mul_smul, h3]

theorem svd_scale {n p m : ℕ} {A : Matrix (Fin n) (Fin m) ℂ} {W : Matrix (Fin n) (Fin p) ℂ} {s : Fin p → ℂ}
    {Z : Matrix (Fin m) (Fin p) ℂ} (h : IsSVD A W s Z) {c : ℝ} (hc : 0 < c) : IsSVD (c • A) W (c • s) Z := by
  obtain ⟨h1, h2, h3, h4⟩ := h
  refine ⟨h1, h2, ?_, ?_⟩
  · intro i
    obtain ⟨t, h5, h6⟩ := h3 i
    exact ⟨c * t, mul_nonneg hc.le h5, by simp [h6]⟩
  · rw [diagonal_smul', Matrix.mul_smul, Matrix.smul_mul, h4]

/-- **C131** `svd` (third output `V`) and `linalg_svd` (third output `V^H`): the singular values have the unit, the
singular vectors none. -/
theorem C131_svd (σ : SetOrder) (n p m k : ℕ) (F : Kernel T) (a : Leaf T) (ha : a.Ok) {A : T} (hA : a.si = some A)
    (x W s Z : T) (hx : a.Stores x)
    (hF : F (some x :: List.replicate k none) = .ok [(W, true), (s, true), (Z, true)]) :
    (IsSVD (mat n m x) (mat n p W) (vec p s) (mat m p Z) →
      torchCall σ "svd" F ([a] :: List.replicate k [.other]) = .ok [.bare W, .q s a.getUnit, .bare Z] ∧
      IsSVD (mat n m A) (mat n p W) (vec p (a.getUnit.value • s)) (mat m p Z)) ∧
    (IsSVD (mat n m x) (mat n p W) (vec p s) (mat p m Z)ᴴ →
      torchCall σ "linalg_svd" F ([a] :: List.replicate k [.other]) = .ok [.bare W, .q s a.getUnit, .bare Z] ∧
      IsSVD (mat n m A) (mat n p W) (vec p (a.getUnit.value • s)) (mat p m Z)ᴴ) := by
  have hp := getUnit_pos ha
  rw [stores_si' hx hA, mat_smul, vec_smul]
  constructor <;> intro h <;> refine ⟨?_, svd_scale h hp⟩
  all_goals
    rw [call1 σ (f := .svd) (by decide +kernel) rfl (by decide +kernel) rfl F a x hx k _ hF]
    simp [Fam.spec, RetSpec.expand, resolveAll, Ret.resolve, PyDict.get?, bind, Except.bind, pure,
      Except.pure, post, Except.map]

/-- The conditions on a least-squares solution: normal equations, squared residuals of the columns, singular values. -/
def IsLstsq {n m p : ℕ} (A : Matrix (Fin n) (Fin m) ℂ) (B : Matrix (Fin n) (Fin p) ℂ) (X : Matrix (Fin m) (Fin p) ℂ)
    (r : Fin p → ℂ) (s : Fin m → ℂ) : Prop :=
  Aᴴ * (A * X) = Aᴴ * B ∧ (∀ j, r j = ((∑ i, ‖(A * X - B) i j‖ ^ 2 : ℝ) : ℂ)) ∧
    ∃ (W : Matrix (Fin n) (Fin m) ℂ) (Z : Matrix (Fin m) (Fin m) ℂ), IsSVD A W s Z

/-- **C131** `linalg_lstsq(A, B)`: solution, squared residuals, rank (a number without a unit) and singular values. -/
theorem C131_lstsq (σ : SetOrder) (n m p k : ℕ) (F : Kernel T) (a b : Leaf T) (ha : a.Ok) (hb : b.Ok) {A B : T}
    (hA : a.si = some A) (hB : b.si = some B) (x y X r s rank : T) (hx : a.Stores x) (hy : b.Stores y)
    (hF : F (some x :: some y :: List.replicate k none) = .ok [(X, true), (r, true), (rank, false), (s, true)])
    (hX : IsLstsq (mat n m x) (mat n p y) (mat m p X) (vec p r) (vec m s)) :
    ∃ w w2, torchCall σ "linalg_lstsq" F ([a] :: [b] :: List.replicate k [.other]) =
        .ok [.q X w, .q r w2, .bare rank, .q s a.getUnit] ∧
      HasUnit w (b.getUnit.value / a.getUnit.value) (fun d => b.dim d - a.dim d) ∧
      HasUnit w2 (b.getUnit.value ^ 2) (fun d => b.dim d * 2) ∧
      IsLstsq (mat n m A) (mat n p B) (mat m p (w.value • X)) (vec p (w2.value • r))
        (vec m (a.getUnit.value • s)) := by
  obtain ⟨w, h1, h2⟩ := div_unit σ hb ha
  obtain ⟨w2, h3, h4⟩ := pow_unit hb 2
  have hpa := getUnit_pos ha
  have hpb := getUnit_pos hb
  have hw2 : w2.value = b.getUnit.value ^ 2 := by rw [h4.1]; norm_num
  refine ⟨w, w2, ?_, h2, ⟨hw2, h4.2⟩, ?_⟩
  · rw [call2 σ (f := .linLstsq) (by decide +kernel) rfl (by decide +kernel) rfl F a b x y hx hy k _ hF]
    simp [Fam.spec, RetSpec.expand, resolveAll, Ret.resolve, UE.eval, U1, U2, PyDict.get?, bind, Except.bind, pure,
      Except.pure, h1, h3, liftErr, post, Except.map]
  · obtain ⟨e1, e2, W, Z, e3⟩ := hX
    rw [stores_si' hx hA, stores_si' hy hB, h2.1, hw2]
    simp only [mat_smul, vec_smul]
    have key : (a.getUnit.value • mat n m x) * ((b.getUnit.value / a.getUnit.value) • mat m p X) =
        b.getUnit.value • (mat n m x * mat m p X) := by
      rw [Matrix.smul_mul, Matrix.mul_smul, smul_smul, mul_div_cancel₀ _ hpa.ne']
    refine ⟨?_, ?_, W, Z, svd_scale e3 hpa⟩
    · rw [key, conj_smul, Matrix.smul_mul, Matrix.mul_smul, Matrix.smul_mul, Matrix.mul_smul, e1]
    · intro j
      rw [key, ← smul_sub]
      simp only [Pi.smul_apply, Matrix.smul_apply, norm_smul, mul_pow]
      rw [← Finset.mul_sum, e2 j]
      simp

/-! ### The hypotheses are met: diagonal 2 by 2 matrices of lengths in kilometres and times in hours -/

/-- The matrix `diag(a, b)`. -/
def dg (a b : ℂ) : T := fun i j => if i = j then (if i = 0 then a else b) else 0

/-- The operation that returns `r` for every input. -/
def kc (r : List (T × Bool)) : Kernel T := fun _ => .ok r

theorem dg_mul (a b c d : ℂ) : mat 2 2 (dg a b) * mat 2 2 (dg c d) = mat 2 2 (dg (a * c) (b * d)) := by
  ext i j; fin_cases i <;> fin_cases j <;> simp [Matrix.mul_apply, Fin.sum_univ_two, mat, dg]

theorem dg_one : mat 2 2 (dg 1 1) = 1 := by
  ext i j; fin_cases i <;> fin_cases j <;> simp [mat, dg]

theorem dg_star (a b : ℝ) : (mat 2 2 (dg a b))ᴴ = mat 2 2 (dg a b) := by
  ext i j; fin_cases i <;> fin_cases j <;> simp [mat, dg]

/-- `C131_solve`: `diag(2, 4) km X = diag(6, 12) h`. -/
example (σ : SetOrder) := C131_solve σ 2 2 1 (kc [(dg 3 3, true)]) (.q (dg 2 4) exKm) (.q (dg 6 12) exHour) exKm_ok exHour_ok
  rfl rfl (dg 2 4) (dg 6 12) (dg 3 3) rfl rfl rfl (by rw [dg_mul]; norm_num)

/-- `C131_triangular_solve`, the same system. -/
example (σ : SetOrder) := C131_triangular_solve σ 2 2 3 (kc [(dg 3 3, true), (dg 2 4, true)]) (.q (dg 6 12) exHour) (.q (dg 2 4) exKm)
  exHour_ok exKm_ok rfl rfl (dg 2 4) (dg 6 12) (dg 3 3) rfl rfl rfl (by rw [dg_mul]; norm_num)

/-- `C131_inverse`, `C131_pinverse` (of the singular `diag(2, 0)`). -/
example (σ : SetOrder) := C131_inverse σ 2 0 (kc [(dg (1 / 2) (1 / 4), true)]) (.q (dg 2 4) exKm) exKm_ok rfl (dg 2 4)
  (dg (1 / 2) (1 / 4)) rfl rfl (by rw [dg_mul]; norm_num [dg_one])
example (σ : SetOrder) := C131_pinverse σ 2 2 0 (kc [(dg (1 / 2) 0, true)]) (.q (dg 2 0) exKm) exKm_ok rfl (dg 2 0)
  (dg (1 / 2) 0) rfl rfl (by
    have := dg_star 1 0
    push_cast at this
    refine ⟨?_, ?_, ?_, ?_⟩ <;> simp only [dg_mul] <;> norm_num [this])

/-- `C131_cholesky`, `C131_cholesky_inverse`, `C131_cholesky_solve`: the matrix `diag(4, 9)` and its factor `diag(2, 3)`. -/
example (σ : SetOrder) := C131_cholesky σ 2 0 (kc [(dg 2 3, true)]) (.q (dg 4 9) exKm) exKm_ok rfl (dg 4 9) (dg 2 3) rfl rfl (by
  have := dg_star 2 3
  push_cast at this
  refine ⟨fun i j h => by fin_cases i <;> fin_cases j <;> simp_all [mat, dg], ?_⟩
  rw [this, dg_mul]
  norm_num)
example (σ : SetOrder) := C131_cholesky_inverse σ 2 0 (kc [(dg (1 / 4) (1 / 9), true)]) (.q (dg 2 3) exKm) exKm_ok rfl (dg 2 3)
  (dg (1 / 4) (1 / 9)) rfl rfl (by
    have := dg_star 2 3
    push_cast at this
    rw [this, dg_mul, dg_mul, ← dg_one]
    norm_num)
example (σ : SetOrder) := C131_cholesky_solve σ 2 2 0 (kc [(dg 5 7, true)]) (.q (dg 20 63) exHour) (.q (dg 2 3) exKm) exHour_ok exKm_ok
  rfl rfl (dg 2 3) (dg 20 63) (dg 5 7) rfl rfl rfl (by
    have := dg_star 2 3
    push_cast at this
    rw [this, dg_mul, dg_mul]
    norm_num)

/-- `C131_eig`: eigenvalues 2 and 4. -/
example (σ : SetOrder) (name : String) (h : name ∈ eigNames) := C131_eig σ 2 0 name h (kc [(fun _ i => if i = 0 then 2 else 4, true), (dg 1 1, true)])
  (.q (dg 2 4) exKm) rfl (dg 2 4) (fun _ i => if i = 0 then 2 else 4) (dg 1 1) rfl rfl (by
    rw [dg_one, Matrix.mul_one, Matrix.one_mul]
    ext i j; fin_cases i <;> fin_cases j <;> simp [mat, dg, vec])

/-- `C131_qr`, `C131_svd`. -/
example (σ : SetOrder) := C131_qr σ 2 2 2 0 (kc [(dg 1 1, true), (dg 2 4, true)]) (.q (dg 2 4) exKm) rfl (dg 2 4) (dg 1 1) (dg 2 4)
  rfl rfl (by
    refine ⟨by rw [dg_one]; simp, fun i j h => by fin_cases i <;> fin_cases j <;> simp_all [mat, dg], by rw [dg_one, Matrix.one_mul]⟩)
example (σ : SetOrder) := (C131_svd σ 2 2 2 0 (kc [(dg 1 1, true), (fun _ i => if i = 0 then 2 else 4, true), (dg 1 1, true)])
  (.q (dg 2 4) exKm) exKm_ok rfl (dg 2 4) (dg 1 1) (fun _ i => if i = 0 then 2 else 4) (dg 1 1) rfl rfl).1 (by
    refine ⟨by rw [dg_one]; simp, by rw [dg_one]; simp, fun i => ?_, ?_⟩
    · fin_cases i
      · exact ⟨2, by norm_num, by simp [vec]⟩
      · exact ⟨4, by norm_num, by simp [vec]⟩
    · rw [dg_one, Matrix.one_mul, conjTranspose_one, Matrix.mul_one]
      ext i j; fin_cases i <;> fin_cases j <;> simp [mat, dg, vec])

/-- `C131_lstsq`: the column `(1, 0)` against `(3, 5)`: solution 3, squared residual 25. -/
example (σ : SetOrder) := C131_lstsq σ 2 1 1 1 (kc [(fun _ _ => 3, true), (fun _ _ => 25, true), (fun _ _ => 1, false), (fun _ _ => 1, true)])
  (.q (fun i _ => if i = 0 then 1 else 0) exKm) (.q (fun i _ => if i = 0 then 3 else 5) exHour) exKm_ok exHour_ok rfl rfl
  (fun i _ => if i = 0 then 1 else 0) (fun i _ => if i = 0 then 3 else 5) (fun _ _ => 3) (fun _ _ => 25) (fun _ _ => 1) (fun _ _ => 1)
  rfl rfl rfl (by
    refine ⟨?_, fun j => ?_, mat 2 1 fun i _ => if i = 0 then 1 else 0, 1, ?_, ?_, fun i => ⟨1, by norm_num, by simp [vec]⟩, ?_⟩
    · ext i j; simp [Matrix.mul_apply, Fin.sum_univ_two, mat]
    · simp [Matrix.mul_apply, Fin.sum_univ_two, mat, vec]; norm_num
    · ext i j; rw [Subsingleton.elim i j]; simp [Matrix.mul_apply, Fin.sum_univ_two, mat]
    · simp
    · ext i j; simp [Matrix.mul_apply, mat, vec, Subsingleton.elim j 0])

end Verif.Quant.LinAlg
