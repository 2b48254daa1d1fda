import Verif.Roots.Closed
import Verif.Roots.Backward
import Mathlib.Analysis.Complex.Polynomial.Basic
import Mathlib.Tactic.Order
import Mathlib.Order.Fin.Basic
import Mathlib.Analysis.SpecialFunctions.Trigonometric.Basic
import Mathlib.LinearAlgebra.Matrix.ToLinearEquiv
import Mathlib.Data.Fintype.EquivFin

/-! # Properties of root finding: C24-C31, C62 -/

namespace Verif.Roots

/-! ### C62, C24 -/

/-- **C62** `elementary_symmetric(p, a)` is the sum over all `p`-element sets of positions of the product of
the entries, for every `p ≥ 1` (also `p` larger than the number of entries, where it is 0). -/
theorem C62_elementary_symmetric {R : Type*} [CommRing R] (p : ℕ) (hp : 0 < p) (a : List R) :
    elementarySymmetric p a = .ok (esymmSpec p a) := by
  rw [esymm_ok p hp, esymmSpec_eq]

/-- **C62** the order of the entries is irrelevant. -/
theorem C62_perm {R : Type*} [CommRing R] (p : ℕ) (a b : List R) (h : a.Perm b) :
    elementarySymmetric p a = elementarySymmetric p b := by
  cases p with
  | zero => cases a <;> cases b <;> simp [elementarySymmetric, combos, mapE, product]
  | succ p => rw [esymm_ok _ (Nat.succ_pos p), esymm_ok _ (Nat.succ_pos p), Multiset.coe_eq_coe.mpr h]

/-- `C62_elementary_symmetric`, `C62_perm` on `[1, 2, 3]`. -/
example := C62_elementary_symmetric 2 (by norm_num) [1, 2, (3 : ℤ)]
example := C62_perm 2 [1, 2, (3 : ℤ)] [2, 1, 3] (List.Perm.swap _ _ _)

/-- **C62** order 0 raises `TypeError` instead of returning 1: `reduce` of an empty sequence. -/
theorem C62_zero_raises {R : Type*} [CommRing R] (a : List R) : elementarySymmetric 0 a = .error .typeError := by
  cases a <;> rfl

example : elementarySymmetric 2 [1, 2, 3, (4 : ℤ)] = .ok 35 := by decide

/-- **C24** `vieta` never fails and returns the coefficients of the monic polynomial with the given roots,
for every number of roots. -/
theorem C24_vieta {R : Type*} [CommRing R] (rts : List R) : ∃ cs, vieta rts = .ok cs ∧ AreRoots cs rts := by
  refine ⟨_, vieta_ok rts, by simp, fun x => vieta_areRoots rts x⟩

/-- **C24** `vieta` inverts root finding: if `rts` are the roots (with multiplicity) of the polynomial with
coefficients `cs`, then `vieta(rts)` returns `cs`. -/
theorem C24_vieta_inverts {R : Type*} [CommRing R] [IsDomain R] [Infinite R] (cs rts : List R)
    (h : AreRoots cs rts) : vieta rts = .ok cs := by
  obtain ⟨cs', h1, h2⟩ := C24_vieta rts
  rw [h1, monicEval_inj cs' cs (h2.1.symm.trans h.1) (fun x => (h2.2 x).symm.trans (h.2 x))]

/-- `C24_vieta_inverts`: `x³ - 6x² + 11x - 6`. -/
example : vieta [1, 2, (3 : ℂ)] = .ok [-6, 11, -6] :=
  C24_vieta_inverts [-6, 11, -6] [1, 2, 3] ⟨rfl, fun x => by simp [rootProd, monicEval]; ring⟩

/-- **C24** the order of the roots is irrelevant. -/
theorem C24_vieta_perm {R : Type*} [CommRing R] (a b : List R) (h : a.Perm b) : vieta a = vieta b := by
  rw [vieta_ok, vieta_ok, h.length_eq, Multiset.coe_eq_coe.mpr h]

example : vieta [1, 2, (3 : ℤ)] = .ok [-6, 11, -6] := by decide
example : AreRoots [-6, 11, -6] [1, 2, (3 : ℂ)] := ⟨rfl, fun x => by simp [rootProd, monicEval]; ring⟩

/-! ### C25 -/

/-- **C25** the characteristic polynomial of the companion matrix is the polynomial (evaluated at any `x` of
any commutative ring), for every degree. So its eigenvalues are the roots, with multiplicity. -/
theorem C25_companion_det {R : Type*} [CommRing R] (cs : List R) (x : R) :
    (Matrix.scalar (Fin cs.length) x - companion fun i => cs.get i).det = monicEval cs x := by
  rw [companion_det]
  congr 1
  exact List.ofFn_get cs

/-- **C25** `x` is an eigenvalue of the companion matrix iff it is a root. -/
theorem C25_eigenvalue_iff {K : Type*} [Field K] (cs : List K) (x : K) :
    (∃ v, v ≠ 0 ∧ (companion fun i => cs.get i).mulVec v = x • v) ↔ monicEval cs x = 0 := by
  rw [← C25_companion_det, ← Matrix.exists_mulVec_eq_zero_iff]
  constructor
  · rintro ⟨v, hv, h⟩
    refine ⟨v, hv, ?_⟩
    rw [Matrix.sub_mulVec, h]
    ext i
    simp [Matrix.scalar_apply, Matrix.mulVec_diagonal]
  · rintro ⟨v, hv, h⟩
    refine ⟨v, hv, ?_⟩
    rw [Matrix.sub_mulVec, sub_eq_zero] at h
    rw [← h]
    ext i
    simp [Matrix.scalar_apply, Matrix.mulVec_diagonal]

/-- The matrix of the project's own test. -/
example : (companion fun i => [-1, -2, -3].get i : Matrix (Fin 3) (Fin 3) ℤ) = !![1, 2, 3; 1, 0, 0; 0, 1, 0] := by
  decide

/-! ### C26-C28: closed forms -/

/-- **C26** quadratic: `(x - r1)(x - r2) = x² + b x + c`, for all complex `b`, `c` and any branch of the
square root. -/
theorem C26_quadratic (sq : ℂ → ℂ) (h : IsSqrt sq) (b c : ℂ) :
    AreRoots [b, c] [(roots2 sq b c).1, (roots2 sq b c).2] := by
  refine ⟨rfl, fun x => ?_⟩
  obtain ⟨h1, h2⟩ := roots2_vieta h b c
  simp only [rootProd, monicEval, List.map_cons, List.map_nil, List.prod_cons, List.prod_nil, List.foldl_cons,
    List.foldl_nil]
  linear_combination (-x) * h1 + h2

/-- **C27** cubic: the three numbers are the roots, for all regular coefficients, the square root with
non-negative real part (any choice on the negative axis) and any branch of the cube root. -/
theorem C27_cubic (sq cb : ℂ → ℂ) (hs : IsPrincipalSqrt sq) (hcb : IsCbrt cb) (b c d : ℂ)
    (hreg : CubicRegular b c d) :
    AreRoots [b, c, d] [(roots3 sq cb b c d).1, (roots3 sq cb b c d).2.1, (roots3 sq cb b c d).2.2] := by
  refine ⟨rfl, fun x => ?_⟩
  obtain ⟨h1, h2, h3⟩ := roots3_vieta hs hcb b c d hreg
  simp only [rootProd, monicEval, List.map_cons, List.map_nil, List.prod_cons, List.prod_nil, List.foldl_cons,
    List.foldl_nil]
  linear_combination (-x ^ 2) * h1 + x * h2 - h3

theorem principal_cpow : IsPrincipalSqrt fun z => z ^ (1 / 2 : ℂ) := by
  constructor
  · intro z
    by_cases hz : z = 0
    · subst hz; simp
    · rw [← Complex.cpow_add _ _ hz]; norm_num
  · intro z
    by_cases hz : z = 0
    · subst hz; simp
    · simp only
      rw [Complex.cpow_def_of_ne_zero hz, Complex.exp_re]
      apply mul_nonneg (Real.exp_pos _).le
      apply Real.cos_nonneg_of_mem_Icc
      have him : (Complex.log z * (1 / 2)).im = Complex.arg z / 2 := by
        have : (1 / 2 : ℂ) = ((1 / 2 : ℝ) : ℂ) := by push_cast; rfl
        rw [this, Complex.im_mul_ofReal, Complex.log_im]; ring
      rw [him]
      have h1 := Complex.neg_pi_lt_arg z
      have h2 := Complex.arg_le_pi z
      constructor <;> linarith

theorem cbrt_cpow : IsCbrt fun z => z ^ (1 / 3 : ℂ) := by
  intro z
  by_cases hz : z = 0
  · subst hz; simp
  · simp only
    rw [← Complex.cpow_add _ _ hz, ← Complex.cpow_add _ _ hz]; norm_num

/-- **C27** the exclusion is needed: with the principal square root, `x³ = 2i` is "solved" by a triple root
0. -/
theorem C27_degenerate_wrong :
    roots3 (fun z => z ^ (1 / 2 : ℂ)) (fun z => z ^ (1 / 3 : ℂ)) 0 0 (-2 * Complex.I) = (0, 0, 0) ∧
    ¬ AreRoots [0, 0, -2 * Complex.I] [0, 0, 0] := by
  constructor
  · have h1 : ((-1 : ℂ)) ^ (1 / 2 : ℂ) = Complex.I := by
      rw [Complex.cpow_def_of_ne_zero (by norm_num), Complex.log_neg_one,
        show (Real.pi : ℂ) * Complex.I * (1 / 2) = (Real.pi / 2 : ℝ) * Complex.I by push_cast; ring,
        Complex.exp_mul_I, ← Complex.ofReal_cos, ← Complex.ofReal_sin]
      simp
    have hR : ((2 * 0 * 0 * 0 - 9 * 0 * 0 + 27 * (-2 * Complex.I)) / 54 : ℂ) = -Complex.I := by ring
    have hQ : ((0 * 0 - 3 * 0) / 9 : ℂ) = 0 := by simp
    unfold roots3
    simp only [hR, hQ]
    have h2 : (-Complex.I * -Complex.I - 0 * 0 * 0 : ℂ) = -1 := by
      linear_combination Complex.I_mul_I
    rw [h2, h1]
    simp
  · rintro ⟨-, h⟩
    have := h 0
    simp [rootProd, monicEval] at this

/-- **C27** real coefficients are always regular. -/
theorem C27_real_regular (b c d : ℝ) : CubicRegular b c d := by
  intro _ h
  have : (27 * (d : ℂ) - b * b * b) = ((27 * d - b * b * b : ℝ) : ℂ) := by push_cast; ring
  rw [this, Complex.ofReal_re] at h
  have h2 : (27 * d : ℝ) = b * b * b := by linarith
  exact_mod_cast h2

/-- **C28** quartic: the four numbers are the roots, for all coefficients with a regular resolvent. -/
theorem C28_quartic (sq cb : ℂ → ℂ) (hs : IsPrincipalSqrt sq) (hcb : IsCbrt cb) (b c d e : ℂ)
    (hreg : QuarticRegular b c d e) :
    AreRoots [b, c, d, e] [(roots4 sq cb b c d e).1, (roots4 sq cb b c d e).2.1, (roots4 sq cb b c d e).2.2.1,
      (roots4 sq cb b c d e).2.2.2] := by
  refine ⟨rfl, fun x => ?_⟩
  unfold roots4
  rw [rootProd_perm (sort4_perm _ _ _ _ _ _ _ _)]
  have h := roots4Depressed_vieta hs hcb _ _ _ hreg (x + b / 4)
  simp only [rootProd, monicEval, List.map_cons, List.map_nil, List.prod_cons, List.prod_nil, List.foldl_cons,
    List.foldl_nil, mul_one]
  dsimp only at h
  generalize roots4Depressed sq cb _ _ _ = y at h ⊢
  linear_combination h

/-- **C28** real coefficients are always regular. -/
theorem C28_real_regular (b c d e : ℝ) : QuarticRegular b c d e := by
  right
  have := C27_real_regular (2 * ((8 * c - 3 * b * b) / 8)) (((8 * c - 3 * b * b) / 8) * ((8 * c - 3 * b * b) / 8) -
      4 * ((-3 * b * b * b * b + 256 * e - 64 * b * d + 16 * b * b * c) / 256))
    (-((b * b * b - 4 * b * c + 8 * d) / 8) * ((b * b * b - 4 * b * c + 8 * d) / 8))
  push_cast at this
  exact this

/-- A regular cubic and quartic with complex coefficients. -/
example : CubicRegular Complex.I 2 3 ∧ QuarticRegular 0 0 1 Complex.I := by
  constructor
  · intro h; simp at h; norm_num at h
  · right
    intro h
    exfalso
    have := congrArg Complex.im h
    norm_num at this

/-! ### C29 -/

theorem sort4_keys {α : Type*} [LinearOrder α] (a b c d : α) :
    (sort4 a a b b c c d d).1 ≥ (sort4 a a b b c c d d).2.1 ∧
    (sort4 a a b b c c d d).2.1 ≥ (sort4 a a b b c c d d).2.2.1 ∧
    (sort4 a a b b c c d d).2.2.1 ≥ (sort4 a a b b c c d d).2.2.2 := by
  unfold sort4
  split_ifs with h1 h2 h3 h4 h5 h6 h7 h8 h9 h10 h11 h12 h13 h14 h15 h16 h17 h18 h19 h20 h21 h22 h23 <;>
    simp only [not_lt, gt_iff_lt] at * <;> refine ⟨?_, ?_, ?_⟩ <;>
    first | assumption | exact le_of_lt (by assumption)

theorem sort4_map {α T S : Type*} [LinearOrder α] (g : T → S) (v1 v2 v3 v4 : α) (r1 r2 r3 r4 : T) :
    sort4 v1 (g r1) v2 (g r2) v3 (g r3) v4 (g r4) =
      (g (sort4 v1 r1 v2 r2 v3 r3 v4 r4).1, g (sort4 v1 r1 v2 r2 v3 r3 v4 r4).2.1,
        g (sort4 v1 r1 v2 r2 v3 r3 v4 r4).2.2.1, g (sort4 v1 r1 v2 r2 v3 r3 v4 r4).2.2.2) := by
  unfold sort4
  split_ifs <;> rfl

/-- **C29** `sort4` returns a rearrangement of the items: there is a permutation `e` of the four positions
such that the output is the items in that order and the keys in that order are non-increasing. -/
theorem C29_sort4 {α T : Type*} [LinearOrder α] (v : Fin 4 → α) (r : Fin 4 → T) :
    ∃ e : Equiv.Perm (Fin 4), sort4 (v 0) (r 0) (v 1) (r 1) (v 2) (r 2) (v 3) (r 3) =
        (r (e 0), r (e 1), r (e 2), r (e 3)) ∧ Antitone (v ∘ e) := by
  -- sort the positions themselves
  set s := sort4 (v 0) (0 : Fin 4) (v 1) 1 (v 2) 2 (v 3) 3 with hs
  let f : Fin 4 → Fin 4 := ![s.1, s.2.1, s.2.2.1, s.2.2.2]
  have hinj : Function.Injective f := by
    have hp := sort4_perm (v 0) (0 : Fin 4) (v 1) 1 (v 2) 2 (v 3) 3
    have hnd : [s.1, s.2.1, s.2.2.1, s.2.2.2].Nodup := hp.nodup_iff.mpr (by decide)
    have : List.ofFn f = [s.1, s.2.1, s.2.2.1, s.2.2.2] := by simp [f, List.ofFn_succ]
    rw [← List.nodup_ofFn, this]
    exact hnd
  refine ⟨Equiv.ofBijective f (Finite.injective_iff_bijective.mp hinj), ?_, ?_⟩
  · exact sort4_map r _ _ _ _ _ _ _ _
  · have h3 : v s.1 ≥ v s.2.1 ∧ v s.2.1 ≥ v s.2.2.1 ∧ v s.2.2.1 ≥ v s.2.2.2 := by
      have h := sort4_map v (v 0) (v 1) (v 2) (v 3) 0 1 2 3
      have hk := sort4_keys (v 0) (v 1) (v 2) (v 3)
      rw [h, ← hs] at hk
      exact hk
    have : Antitone (v ∘ f) := by
      rw [Fin.antitone_iff_succ_le]
      intro i
      fin_cases i
      · exact h3.1
      · exact h3.2.1
      · exact h3.2.2
    exact this

example : sort4 (1 : ℤ) "a" 5 "b" 3 "c" 4 "d" = ("b", "d", "c", "a") := by decide

/-! ### C30: dispatch -/

theorem allFin_map (zs : List ℂ) : allFin (zs.map .fin) = some zs := by
  induction zs with
  | nil => rfl
  | cons z zs ih => simp [allFin, ih]

/-- **C30** `roots(*coeffs)` for `n ≥ 2` finite coefficients returns `n` numbers, which are the roots with
multiplicity, whatever the degree and whether or not the numeric method is forced; `eigvals` is assumed to be
correct, and the closed forms need a regular polynomial. -/
theorem C30_roots (sq cb : ℂ → ℂ) (hs : IsPrincipalSqrt sq) (hcb : IsCbrt cb)
    (eig : (n : ℕ) → Matrix (Fin n) (Fin n) ℂ → List ℂ) (heig : EigSpec eig)
    (eigBad : List Num → Except Err (List Num)) (force : Bool) (cs : List ℂ) (hn : 2 ≤ cs.length)
    (hreg : force = false → Regular cs) :
    ∃ rts, forward sq cb eig eigBad force (cs.map .fin) = .ok (rts.map .fin) ∧ AreRoots cs rts := by
  refine ⟨solve sq cb eig force cs, ?_, ?_⟩
  · unfold forward
    rw [if_neg (by simp; intro h; simp [h] at hn), if_neg (by rw [List.length_map]; omega), allFin_map]
  · have hcomp : AreRoots cs (eig cs.length (companion fun i => cs.get i)) := by
      refine ⟨(heig _ _).1, fun x => ?_⟩
      rw [(heig _ _).2, C25_companion_det]
    cases force with
    | true => exact hcomp
    | false =>
      match cs, hreg rfl, hcomp with
      | [], _, _ => simp at hn
      | [_], _, _ => simp at hn
      | [b, c], _, _ => exact C26_quadratic sq hs.1 b c
      | [b, c, d], h, _ => exact C27_cubic sq cb hs hcb b c d h
      | [b, c, d, e], h, _ => exact C28_quartic sq cb hs hcb b c d e h
      | _ :: _ :: _ :: _ :: _ :: _, _, h => exact h

/-- The roots of a polynomial are unique up to order. -/
theorem areRoots_perm {R : Type*} [CommRing R] [IsDomain R] [Infinite R] (cs a b : List R) (ha : AreRoots cs a)
    (hb : AreRoots cs b) : a.Perm b := by
  rw [← Multiset.coe_eq_coe, ← Polynomial.roots_multiset_prod_X_sub_C (a : Multiset R),
    ← Polynomial.roots_multiset_prod_X_sub_C (b : Multiset R)]
  congr 1
  apply Polynomial.funext
  intro x
  have e : ∀ l : List R, Polynomial.eval x ((l : Multiset R).map fun r => Polynomial.X - Polynomial.C r).prod =
      rootProd l x := by
    intro l
    rw [Polynomial.eval_multiset_prod, rootProd]
    simp only [Multiset.map_coe, Multiset.prod_coe, List.map_map]
    congr 1
    apply List.map_congr_left
    intro r _
    simp
  rw [e, e, ha.2, hb.2]

/-- **C30** the closed forms and the numeric method return the same roots up to their order. -/
theorem C30_force_irrelevant (sq cb : ℂ → ℂ) (hs : IsPrincipalSqrt sq) (hcb : IsCbrt cb)
    (eig : (n : ℕ) → Matrix (Fin n) (Fin n) ℂ → List ℂ) (heig : EigSpec eig)
    (eigBad : List Num → Except Err (List Num)) (cs : List ℂ) (hn : 2 ≤ cs.length) (hreg : Regular cs) :
    ∃ a b : List ℂ, forward sq cb eig eigBad false (cs.map .fin) = .ok (a.map .fin) ∧
      forward sq cb eig eigBad true (cs.map .fin) = .ok (b.map .fin) ∧ a.Perm b := by
  obtain ⟨a, h1, h2⟩ := C30_roots sq cb hs hcb eig heig eigBad false cs hn fun _ => hreg
  obtain ⟨b, h3, h4⟩ := C30_roots sq cb hs hcb eig heig eigBad true cs hn (by simp)
  exact ⟨a, b, h1, h3, areRoots_perm cs a b h2 h4⟩

/-- **C30** no coefficients: `ValueError`; one coefficient: `NotImplementedError`. -/
theorem C30_errors (sq cb : ℂ → ℂ) (eig : (n : ℕ) → Matrix (Fin n) (Fin n) ℂ → List ℂ)
    (eigBad : List Num → Except Err (List Num)) (force : Bool) (z : Num) :
    forward sq cb eig eigBad force [] = .error .valueError ∧
    forward sq cb eig eigBad force [z] = .error .notImplemented := ⟨rfl, rfl⟩

/-- **C30** any infinite or NaN coefficient makes the closed forms return NaN for every root. -/
theorem C30_nonfinite (sq cb : ℂ → ℂ) (eig : (n : ℕ) → Matrix (Fin n) (Fin n) ℂ → List ℂ)
    (eigBad : List Num → Except Err (List Num)) (cs : List Num) (hbad : Num.bad ∈ cs)
    (hn : cs.length = 2 ∨ cs.length = 3 ∨ cs.length = 4) :
    forward sq cb eig eigBad false cs = .ok (List.replicate cs.length .bad) := by
  have h : ∀ l : List Num, Num.bad ∈ l → allFin l = none := by
    intro l
    induction l with
    | nil => simp
    | cons z l ih =>
      intro hm
      cases z with
      | bad => rfl
      | fin z => simp only [List.mem_cons, reduceCtorEq, false_or] at hm; simp [allFin, ih hm]
  unfold forward
  rw [if_neg (by omega), if_neg (by omega), h cs hbad]
  simp [hn]

/-- A function satisfying `EigSpec` exists (the roots of the characteristic polynomial). -/
theorem eigSpec_nonempty : ∃ eig, EigSpec eig := by
  refine ⟨fun n M => M.charpoly.roots.toList, fun n M => ?_⟩
  have hsplit : M.charpoly.roots.card = M.charpoly.natDegree :=
    (IsAlgClosed.card_roots_eq_natDegree)
  refine ⟨by rw [Multiset.length_toList, hsplit, Matrix.charpoly_natDegree_eq_dim, Fintype.card_fin], fun x => ?_⟩
  have h1 := Polynomial.prod_multiset_X_sub_C_of_monic_of_roots_card_eq (Matrix.charpoly_monic M) hsplit
  have h2 : (Matrix.scalar (Fin n) x - M).det = M.charpoly.eval x := by
    rw [Matrix.eval_charpoly]
  rw [h2, ← h1, Polynomial.eval_multiset_prod, rootProd]
  conv_rhs => rw [← Multiset.coe_toList M.charpoly.roots]
  simp only [Multiset.map_coe, Multiset.prod_coe, List.map_map]
  congr 1
  apply List.map_congr_left
  intro r _
  simp

/-- All hypotheses of C30 can be met, for instance by `x⁵ + x + 1` and by `x³ + 2x + 1`. -/
example : ∃ sq cb eig, IsPrincipalSqrt sq ∧ IsCbrt cb ∧ EigSpec eig ∧ Regular [0, 0, 0, 1, 1] ∧ Regular [0, 2, 1] := by
  obtain ⟨eig, h⟩ := eigSpec_nonempty
  refine ⟨_, _, eig, principal_cpow, cbrt_cpow, h, trivial, ?_⟩
  have := C27_real_regular 0 2 1
  push_cast at this
  exact this

/-! ### C31: gradients -/

/-- **C31** the Jacobian used by the backward pass: for distinct roots, the entry of coefficient `j` and root
`m` is `-r_m^(n-1-j) / ∏_{k≠m} (r_m - r_k)`. -/
theorem C31_jacobian {K : Type*} [Field K] (rts : List K) (h : rts ≠ []) (hd : rts.Nodup) :
    grads rts = .ok (Matrix.of fun j m => - rts.get m ^ (rts.length - 1 - j) /
      ∏ k ∈ Finset.univ.erase m, (rts.get m - rts.get k)) := grads_ok rts h hd

/-- **C31** it is the derivative of the roots: along every differentiable path of coefficients `c(t)`, every
differentiable path `r(t)` of roots starting from the (simple) root `r_m` moves with velocity
`∑ⱼ grads[j, m] cⱼ'`. -/
theorem C31_implicit_derivative {n : ℕ} (c : ℝ → Fin n → ℂ) (c' : Fin n → ℂ) (rts : List ℂ) (hl : rts.length = n)
    (hn : rts ≠ []) (hd : rts.Nodup) (hroots : AreRoots (List.ofFn (c 0)) rts)
    (hc : ∀ j, HasDerivAt (fun t => c t j) (c' j) 0)
    (r : ℝ → ℂ) (r' : ℂ) (hr : HasDerivAt r r' 0) (m : Fin rts.length) (h0 : r 0 = rts.get m)
    (hroot : ∀ᶠ t in nhds (0 : ℝ), monicEval (List.ofFn (c t)) (r t) = 0) :
    ∃ g, grads rts = .ok g ∧ r' = ∑ j : Fin rts.length, g j m * c' (j.cast hl) := by
  refine ⟨_, grads_ok rts hn hd, ?_⟩
  subst hl
  have h1 := hasDerivAt_monicEval c c' r r' rts rfl hroots.2 hc hr m h0
  have h2 : HasDerivAt (fun t => monicEval (List.ofFn (c t)) (r t)) 0 0 :=
    (hasDerivAt_const (0 : ℝ) (0 : ℂ)).congr_of_eventuallyEq hroot
  have h3 := h1.unique h2
  have hne := prod_ne_zero_of_nodup rts hd m
  simp only [Matrix.of_apply, Fin.cast_eq_self, div_mul_eq_mul_div]
  rw [← Finset.sum_div, eq_div_iff hne]
  simp only [neg_mul, Finset.sum_neg_distrib]
  rw [Finset.sum_congr rfl fun j _ => mul_comm (rts.get m ^ (rts.length - 1 - j.val)) (c' j)]
  linear_combination h3

/-- **C31** first order: moving the coefficients by `t δ` and the root by `t ∑ⱼ grads[j, m] δⱼ` leaves the
polynomial's value at the root unchanged to first order in `t`. -/
theorem C31_first_order (cs δ : List ℂ) (hδ : δ.length = cs.length) (rts : List ℂ) (hn : rts ≠ []) (hd : rts.Nodup)
    (hroots : AreRoots cs rts) (m : Fin rts.length) :
    ∃ g, grads rts = .ok g ∧ HasDerivAt (fun t : ℝ =>
      monicEval (List.zipWith (fun c d => c + (t : ℂ) * d) cs δ)
        (rts.get m + (t : ℂ) * ∑ j : Fin rts.length, g j m * δ.getD j 0)) 0 0 := by
  refine ⟨_, grads_ok rts hn hd, ?_⟩
  have hlen := hroots.1
  have hz : ∀ t : ℝ, List.zipWith (fun c d => c + (t : ℂ) * d) cs δ =
      List.ofFn (n := cs.length) fun j => cs.getD j 0 + t * δ.getD j 0 := by
    intro t
    apply List.ext_getElem
    · simp [hδ]
    · intro i h1 h2
      simp only [List.length_ofFn] at h2
      simp [List.getElem?_eq_getElem h2, List.getElem?_eq_getElem (hδ ▸ h2 : i < δ.length)]
  simp only [hz]
  have h0 : List.ofFn (n := cs.length) (fun j => cs.getD j 0 + ((0 : ℝ) : ℂ) * δ.getD j 0) = cs := by
    simp only [Complex.ofReal_zero, zero_mul, add_zero]
    apply List.ext_getElem
    · simp
    · intro i h1 h2
      simp [List.getElem?_eq_getElem h2]
  have hlin : ∀ a b : ℂ, HasDerivAt (fun t : ℝ => a + t * b) b 0 := by
    intro a b
    have := ((Complex.ofRealCLM.hasDerivAt (x := (0 : ℝ))).mul_const b).const_add a
    simpa using this
  have hne := prod_ne_zero_of_nodup rts hd m
  simp only [Matrix.of_apply, div_mul_eq_mul_div]
  rw [← Finset.sum_div]
  set S := (∑ j : Fin rts.length, -rts.get m ^ (rts.length - 1 - j.val) * δ.getD j.val 0) /
    ∏ k ∈ Finset.univ.erase m, (rts.get m - rts.get k) with hS
  have h1 := hasDerivAt_monicEval (n := cs.length) (fun t j => cs.getD j 0 + t * δ.getD j 0) (fun j => δ.getD j 0) _ _ rts hlen
    (by intro x; rw [h0]; exact hroots.2 x) (fun j => hlin _ _) (hlin (rts.get m) S) m (by simp)
  convert h1 using 1
  rw [hS, div_mul_cancel₀ _ hne]
  simp only [neg_mul, Finset.sum_neg_distrib]
  rw [Fin.sum_univ_eq_sum_range (fun j => rts.get m ^ (rts.length - 1 - j) * δ.getD j 0),
    Fin.sum_univ_eq_sum_range (fun j => δ.getD j 0 * rts.get m ^ (cs.length - 1 - j)), hlen]
  rw [Finset.sum_congr rfl fun j _ => mul_comm (rts.get m ^ (cs.length - 1 - j)) (δ.getD j 0)]
  ring

/-- **C31** the vector-Jacobian product: `backward` returns the vector `w` with
`⟨w, c'⟩ = ⟨grad_outputs, r'⟩` whenever the roots move as `r' = gradsᵀ c'` (inner products conjugate-linear in
the first argument, torch's convention for complex gradients). -/
theorem C31_vjp (rts : List ℂ) (hn : rts ≠ []) (hd : rts.Nodup) (gout : Fin rts.length → ℂ) :
    ∃ g w, grads rts = .ok g ∧ backward rts gout = .ok w ∧
      ∀ c' : Fin rts.length → ℂ, ∑ j, (starRingEnd ℂ) (w j) * c' j =
        ∑ m, (starRingEnd ℂ) (gout m) * ∑ j, g j m * c' j := by
  refine ⟨_, _, grads_ok rts hn hd, by unfold backward; rw [grads_ok rts hn hd], fun c' => ?_⟩
  simp only [map_sum, map_mul, Complex.conj_conj, Finset.sum_mul, Finset.mul_sum]
  rw [Finset.sum_comm]
  apply Finset.sum_congr rfl
  intro m _
  apply Finset.sum_congr rfl
  intro j _
  ring

/-- Two distinct roots: 1 and 2 (of `x² - 3x + 2`): `∂r/∂b = 1, -2`, `∂r/∂c = 1, -1`. -/
example : ∃ g, grads [1, (2 : ℂ)] = .ok g ∧ g 0 0 = 1 ∧ g 0 1 = -2 ∧ g 1 0 = 1 ∧ g 1 1 = -1 := by
  refine ⟨_, grads_ok _ (by simp) (by simp), ?_⟩
  have e0 : (Finset.univ.erase (0 : Fin 2)) = {1} := by decide
  have e1 : (Finset.univ.erase (1 : Fin 2)) = {0} := by decide
  refine ⟨?_, ?_, ?_, ?_⟩ <;> simp only [Matrix.of_apply, List.length_cons, List.length_nil, e0, e1] <;> norm_num

/-- The hypotheses of `C26_quadratic`, `C27_cubic`, `C28_quartic` met by the powers `1/2` and `1/3` and by
`x² + ix + 2`, `x³ + 2x + 1`, `x⁴ + x² + x + 1`. -/
example := C26_quadratic (fun z => z ^ (1 / 2 : ℂ)) principal_cpow.1 Complex.I 2
example := C27_cubic _ _ principal_cpow cbrt_cpow (0 : ℝ) (2 : ℝ) (1 : ℝ) (C27_real_regular 0 2 1)
example := C28_quartic _ _ principal_cpow cbrt_cpow 0 0 1 Complex.I (by
  right
  intro h
  exfalso
  have := congrArg Complex.im h
  norm_num at this)

/-- `C30_roots` on `x⁵ + x + 1`, `C30_force_irrelevant` on `x³ + 2x + 1`. -/
example (eigBad : List Num → Except Err (List Num)) : ∃ sq cb eig, ∃ rts : List ℂ,
    forward sq cb eig eigBad false ([0, 0, 0, 1, 1].map .fin) = .ok (rts.map .fin) ∧ AreRoots [0, 0, 0, 1, 1] rts := by
  obtain ⟨eig, h⟩ := eigSpec_nonempty
  exact ⟨_, _, eig, C30_roots _ _ principal_cpow cbrt_cpow eig h eigBad false [0, 0, 0, 1, 1] (by simp) fun _ => trivial⟩
example (eigBad : List Num → Except Err (List Num)) : ∃ sq cb eig, ∃ a b : List ℂ,
    forward sq cb eig eigBad false ([0, 2, 1].map .fin) = .ok (a.map .fin) ∧
      forward sq cb eig eigBad true ([0, 2, 1].map .fin) = .ok (b.map .fin) ∧ a.Perm b := by
  obtain ⟨eig, h⟩ := eigSpec_nonempty
  have := C27_real_regular 0 2 1
  push_cast at this
  exact ⟨_, _, eig, C30_force_irrelevant _ _ principal_cpow cbrt_cpow eig h eigBad [0, 2, 1] (by simp) this⟩

/-- The roots of `x² - 3x + 2`. -/
theorem exRoots : AreRoots [-3, 2] [1, (2 : ℂ)] := ⟨rfl, fun x => by simp [rootProd, monicEval]; ring⟩

/-- `C31_jacobian`, `C31_first_order`, `C31_vjp` at these roots. -/
example := C31_jacobian [1, (2 : ℂ)] (by simp) (by simp)
example := C31_first_order [-3, 2] [1, Complex.I] rfl [1, 2] (by simp) (by simp) exRoots 1
example := C31_vjp [1, (2 : ℂ)] (by simp) (by simp) fun m => m.val + Complex.I

/-- `C31_implicit_derivative`: the roots `1 + t` and `2` of `x² - (3 + t)x + 2 + 2t`. -/
example : ∃ g, grads [1, (2 : ℂ)] = .ok g ∧ (1 : ℂ) = ∑ j : Fin 2, g j 0 * ![-1, 2] j := by
  have hid : HasDerivAt (fun t : ℝ => (t : ℂ)) 1 0 := by
    have := (hasDerivAt_id (0 : ℝ)).ofReal_comp
    simpa using this
  refine C31_implicit_derivative (n := 2) (fun t => ![-(3 + t), 2 + 2 * t]) ![-1, 2] [1, 2] rfl (by simp) (by simp)
    (by simpa using exRoots) ?_ (fun t => 1 + t) 1 (hid.const_add 1) (0 : Fin 2) (by simp) (Filter.Eventually.of_forall fun t => ?_)
  · intro j
    fin_cases j
    · exact (hid.const_add 3).neg
    · simpa using (hid.const_mul 2).const_add 2
  · simp [monicEval]; ring

end Verif.Roots
