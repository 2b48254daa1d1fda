import Verif.Cosmo.OdeintModel
import Verif.Cosmo.Lemmas
import Verif.Cosmo.Dist
import Verif.Ellred.Lambda
import Mathlib.MeasureTheory.Integral.IntervalIntegral.FundThmCalculus

/-! # C113: the distances of the `odeint` driver -/

namespace Verif.Cosmo.Odeint

open Set

/-! ### A solver exists -/

open Classical in
/-- The solver that integrates exactly. -/
noncomputable def exact : Solver where
  run {k} f y0 t := match t with
    | [] => .error .assertion
    | a :: l =>
      if (a :: l).Pairwise (· < ·) ∨ (a :: l).Pairwise (· > ·) then
        .ok ((a :: l).map fun s i => y0 i + ∫ x in a..s, (match f x with | .ok g => g i | .error _ => 0))
      else .error .assertion
  rejects f y0 t h1 h2 := by
    cases t with
    | nil => rfl
    | cons a l => simp only [h1, h2, or_self, if_false]
  solves {k} f g y0 a l hl hm hf hg := by
    set b := l.getLast hl
    refine ⟨fun s i => y0 i + ∫ x in a..s, (match f x with | .ok g => g i | .error _ => 0), ?_, ?_, ?_⟩
    · ext i; simp
    · intro s hs
      rw [hasDerivWithinAt_pi]
      intro i
      have hgi : ContinuousOn (fun x => g x i) (uIcc a b) := fun x hx => (continuousWithinAt_pi.mp (hg x hx)) i
      have h1 : HasDerivWithinAt (fun u => ∫ x in a..u, g x i) (g s i) (uIcc a b) s := by
        haveI : Fact (s ∈ uIcc a b) := ⟨hs⟩
        exact intervalIntegral.integral_hasDerivWithinAt_right
          ((hgi.mono (uIcc_subset_uIcc_left hs)).intervalIntegrable)
          (hgi.stronglyMeasurableAtFilter_nhdsWithin measurableSet_uIcc s) (hgi s hs)
      refine ((h1.const_add (y0 i))).congr ?_ ?_
      · intro u hu
        congr 1
        refine intervalIntegral.integral_congr fun x hx => ?_
        simp only [hf x (uIcc_subset_uIcc_left hu hx)]
      · congr 1
        refine intervalIntegral.integral_congr fun x hx => ?_
        simp only [hf x (uIcc_subset_uIcc_left hs hx)]
    · simp only [hm, if_true]

/-! ### The integral -/

theorem evalBatch_ok (c : Cls) (n : ℕ) (h : ℝ → ℝ → ℝ) (os : List Obj) (z : ℝ) (E : Obj → ℝ)
    (hE : ∀ o ∈ os, e2func c o n z = .ok (E o)) : evalBatch c n h os z = .ok fun i => h (E os[i]) z := by
  induction os with
  | nil => simp only [evalBatch]; congr 1; ext i; exact i.elim0
  | cons o os ih =>
    simp only [evalBatch, hE o (by simp), ih fun o' ho' => hE o' (by simp [ho'])]
    congr 1
    ext i
    refine Fin.cases ?_ (fun j => ?_) i <;> simp

/-- A list that is monotone lies between its first and its last element. -/
theorem mem_hull {a : ℝ} {l : List ℝ} (hl : l ≠ []) (h : (a :: l).Pairwise (· < ·) ∨ (a :: l).Pairwise (· > ·)) {z : ℝ} (hz : z ∈ l) :
    z ∈ uIcc a (l.getLast hl) := by
  have key : ∀ {R : ℝ → ℝ → Prop}, (a :: l).Pairwise R → R a z ∧ (R z (l.getLast hl) ∨ z = l.getLast hl) := by
    intro R hR
    rw [List.pairwise_cons] at hR
    refine ⟨hR.1 z hz, ?_⟩
    have hl' := List.dropLast_append_getLast hl
    rw [← hl'] at hz
    rcases List.mem_append.mp hz with h | h
    · have h2 := hR.2
      rw [← hl', List.pairwise_append] at h2
      exact .inl (h2.2.2 z h _ (by simp))
    · exact .inr (by simpa using h)
  rw [mem_uIcc]
  rcases h with h | h
  · obtain ⟨h1, h2⟩ := key h
    exact .inl ⟨h1.le, h2.elim le_of_lt le_of_eq⟩
  · obtain ⟨h1, h2⟩ := key h
    exact .inr ⟨h2.elim le_of_lt (fun h => h.symm.le), h1.le⟩

theorem integrate_ok (S : Solver) (c : Cls) (n : ℕ) (os : List Obj) (ps : List ℕ) (h : ℝ → ℝ → ℝ) (E : Obj → ℝ → ℝ) (s1 : List ℕ) (a : ℝ)
    (z2 : Tensor) (hl : z2.data ≠ []) (hm : (a :: z2.data).Pairwise (· < ·) ∨ (a :: z2.data).Pairwise (· > ·))
    (hE : ∀ o ∈ os, ∀ s ∈ uIcc a (z2.data.getLast hl), e2func c o n s = .ok (E o s))
    (hc : ∀ o ∈ os, ContinuousOn (fun s => h (E o s) s) (uIcc a (z2.data.getLast hl))) :
    integrate S c n os ps h ⟨s1, [a]⟩ z2 =
      .ok ⟨z2.shape ++ ps, z2.data.flatMap fun z => os.map fun o => ∫ s in a..z, h (E o s) s⟩ := by
  obtain ⟨Y, h0, hY, hrun⟩ := S.solves (evalBatch c n h os) (fun s i => h (E os[i] s) s) 0 a z2.data hl hm
    (fun s hs => evalBatch_ok c n h os s (fun o => E o s) fun o ho => hE o ho s hs)
    (fun s hs => continuousWithinAt_pi.mpr fun i => hc os[i] (List.getElem_mem _) s hs)
  have hval : ∀ z ∈ z2.data, List.ofFn (Y z) = os.map fun o => ∫ s in a..z, h (E o s) s := by
    intro z hz
    have hz' := mem_hull hl hm hz
    have hsub := uIcc_subset_uIcc_left hz'
    have : Y z = fun i : Fin os.length => ∫ s in a..z, h (E os[i] s) s := by
      ext i
      have hi : ∀ s ∈ uIcc a z, HasDerivWithinAt (fun u => Y u i) (h (E os[i] s) s) (uIcc a z) s := fun s hs =>
        ((hasDerivWithinAt_pi.mp (hY s (hsub hs))) i).mono hsub
      have hci := (hc os[i] (List.getElem_mem _)).mono hsub
      have h2 := intervalIntegral.integral_eq_sub_of_hasDeriv_right (fun s hs => (hi s hs).continuousWithinAt)
        (fun s hs => ((hi s (Ioo_subset_Icc_self hs)).hasDerivAt (Icc_mem_nhds hs.1 hs.2)).hasDerivWithinAt) hci.intervalIntegrable
      rw [h2, h0]
      simp
    rw [this]
    refine List.ext_getElem (by simp) fun i h1 h2 => by simp
  simp only [integrate, List.length_singleton, ne_eq, not_true_eq_false, if_false]
  rw [show ([a] : List ℝ) ++ z2.data = a :: z2.data from rfl, hrun]
  simp only [List.map_cons, List.drop_succ_cons, List.drop_zero]
  congr 2
  rw [List.flatMap_map]
  exact List.flatMap_congr hval

/-! ### C113 -/

theorem continuousOn_e2Val (c : Cls) (o : Obj) : ContinuousOn (fun z => e2Val c o (1 + z)) (Ioi (-1)) := by
  intro z hz
  have hz' : (0 : ℝ) < 1 + z := by have := mem_Ioi.mp hz; linarith
  apply ContinuousAt.continuousWithinAt
  have h1 : ContinuousAt (fun z : ℝ => 1 + z) z := by fun_prop
  have hd : ContinuousAt (fun z => deScale c o (1 + z)) z := by
    have hr : ∀ q : ℝ, ContinuousAt (fun z : ℝ => (1 + z) ^ q) z := fun q => h1.rpow_const (.inl hz'.ne')
    have hi : ContinuousAt (fun z : ℝ => 1 / (1 + z)) z := continuousAt_const.div h1 hz'.ne'
    unfold deScale
    cases c.de <;> simp only
    · exact continuousAt_const
    · exact hr _
    · exact (hr _).mul ((continuousAt_const.mul (continuousAt_const.sub hi)).rexp)
    · exact (hr _).mul ((continuousAt_const.mul (continuousAt_const.sub hi)).rexp)
    · exact (hr _).mul (((continuousAt_const.mul h1).sub continuousAt_const).rexp)
  unfold e2Val
  have h2 : ContinuousAt (fun z => if c.rad then o.Or0 * (1 + z) ^ 4 else 0) z := by
    cases c.rad <;> simp only [Bool.false_eq_true, if_false, if_true] <;> fun_prop
  exact ((((h1.pow 2).mul ((continuousAt_const.mul h1).add continuousAt_const)).add (continuousAt_const.mul hd))).add h2

/-- What the theorems assume: the elements of the batch are cosmologies of class `c` built by the constructor and assignments; `E2` is their
own squared Hubble function, positive at all redshifts between `a` and those asked for, which are above -1; and the redshifts asked for, after
the lower limit, are strictly increasing or strictly decreasing. -/
structure Query (p : Phys) (c : Cls) (n : ℕ) (os : List Obj) (E2 : Obj → ℝ → ℝ) (a : ℝ) (zs : List ℝ) : Prop where
  reachable : ∀ o ∈ os, Reachable p c o
  depth : 2 ≤ n
  e2 : ∀ o ∈ os, ∀ z, e2func c o n z = .ok (E2 o z)
  above : ∀ z ∈ a :: zs, -1 < z
  pos : ∀ o ∈ os, ∀ z ∈ zs, ∀ s ∈ uIcc a z, 0 < E2 o s
  nonempty : zs ≠ []
  monotone : (a :: zs).Pairwise (· < ·) ∨ (a :: zs).Pairwise (· > ·)

variable {p : Phys} {c : Cls} {n : ℕ} {os : List Obj} {E2 : Obj → ℝ → ℝ} {a : ℝ}

theorem Query.hull {zs : List ℝ} (q : Query p c n os E2 a zs) : uIcc a (zs.getLast q.nonempty) ⊆ Ioi (-1) := by
  intro x hx
  have h1 := q.above a (by simp)
  have h2 := q.above _ (List.mem_cons_of_mem a (List.getLast_mem q.nonempty))
  rcases mem_uIcc.mp hx with h | h
  · exact lt_of_lt_of_le h1 h.1
  · exact lt_of_lt_of_le h2 h.1

theorem Query.cont {zs : List ℝ} (q : Query p c n os E2 a zs) {o : Obj} (ho : o ∈ os) :
    ContinuousOn (fun s => invEfunc (E2 o s)) (uIcc a (zs.getLast q.nonempty)) := by
  obtain ⟨m, rfl⟩ := exists_add_two q.depth
  have h1 : ∀ s, E2 o s = e2Val c o (1 + s) := fun s => by
    have := (q.e2 o ho s).symm.trans (e2func_settled c o (reachable_settled p c o (q.reachable o ho)) m s)
    simpa using this
  intro s hs
  have hp := q.pos o ho _ (List.getLast_mem q.nonempty) s hs
  simp only [h1] at hp ⊢
  exact ((continuousOn_e2Val c o).mono q.hull s hs).rpow_const (.inl hp.ne')

/-- **C113** the `odeint` driver's comoving distance between `z1` and every element of `z2` is the integral of `1/E`, for every element of a batch
of cosmologies; the result has the shape of `z2` followed by that of the parameters. -/
theorem C113_comoving (S : Solver) (ps s1 : List ℕ) (z2 : Tensor) (q : Query p c n os E2 a z2.data) :
    comovingZ S c n os ps ⟨s1, [a]⟩ z2 =
      .ok ⟨z2.shape ++ ps, z2.data.flatMap fun z => os.map fun o => ∫ s in a..z, 1 / √(E2 o s)⟩ := by
  rw [comovingZ, integrate_ok S c n os ps (fun x _ => invEfunc x) E2 s1 a z2 q.nonempty q.monotone (fun o ho s _ => q.e2 o ho s)
    fun o ho => q.cont ho]
  congr 2
  refine List.flatMap_congr fun z hz => List.map_congr_left fun o ho => intervalIntegral.integral_congr fun s hs => ?_
  simp only [invEfunc]
  rw [show (-1 / 2 : ℝ) = -(1 / 2) by ring, Real.rpow_neg (q.pos o ho z hz s hs).le, ← Real.sqrt_eq_rpow, one_div]

/-- **C113** lookback time: the integral of `1/((1+z) E)` from 0. -/
theorem C113_lookback (S : Solver) (ps : List ℕ) (z2 : Tensor) (q : Query p c n os E2 0 z2.data) :
    lookback S c n os ps z2 =
      .ok ⟨z2.shape ++ ps, z2.data.flatMap fun z => os.map fun o => ∫ s in (0 : ℝ)..z, 1 / ((1 + s) * √(E2 o s))⟩ := by
  rw [lookback, scalar, integrate_ok S c n os ps lookbackIntegrand E2 [] 0 z2 q.nonempty q.monotone (fun o ho s _ => q.e2 o ho s)
    fun o ho => ?_]
  · congr 2
    refine List.flatMap_congr fun z hz => List.map_congr_left fun o ho => intervalIntegral.integral_congr fun s hs => ?_
    simp only [lookbackIntegrand, invEfunc]
    rw [show (-1 / 2 : ℝ) = -(1 / 2) by ring, Real.rpow_neg (q.pos o ho z hz s hs).le, ← Real.sqrt_eq_rpow]
    rw [add_comm s 1, div_eq_mul_inv, one_div, mul_inv, mul_comm]
  · refine (q.cont ho).div (by fun_prop) fun s hs => ?_
    have := mem_Ioi.mp (q.hull hs)
    linarith

/-- **C113** absorption distance: the integral of `(1+z)²/E` from 0. -/
theorem C113_absorption (S : Solver) (ps : List ℕ) (z2 : Tensor) (q : Query p c n os E2 0 z2.data) :
    absorption S c n os ps z2 =
      .ok ⟨z2.shape ++ ps, z2.data.flatMap fun z => os.map fun o => ∫ s in (0 : ℝ)..z, (1 + s) ^ 2 / √(E2 o s)⟩ := by
  rw [absorption, scalar, integrate_ok S c n os ps absIntegrand E2 [] 0 z2 q.nonempty q.monotone (fun o ho s _ => q.e2 o ho s)
    fun o ho => ?_]
  · congr 2
    refine List.flatMap_congr fun z hz => List.map_congr_left fun o ho => intervalIntegral.integral_congr fun s hs => ?_
    simp only [absIntegrand, invEfunc]
    rw [show (-1 / 2 : ℝ) = -(1 / 2) by ring, Real.rpow_neg (q.pos o ho z hz s hs).le, ← Real.sqrt_eq_rpow]
    rw [add_comm s 1, div_eq_mul_inv]
  · refine ContinuousOn.mul (by fun_prop) (q.cont ho)

/-- **C113** the driver raises `AssertionError` if the lower limit followed by the redshifts in the order given is not strictly monotone, whatever the
cosmology: for unsorted or repeated redshifts, and for redshifts on both sides of the lower limit. -/
theorem C113_raises (S : Solver) (ps s1 : List ℕ) (z2 : Tensor) (h1 : ¬ (a :: z2.data).Pairwise (· < ·))
    (h2 : ¬ (a :: z2.data).Pairwise (· > ·)) : comovingZ S c n os ps ⟨s1, [a]⟩ z2 = .error .assertion ∧
    (a = 0 → comoving S c n os ps z2 = .error .assertion ∧ lookback S c n os ps z2 = .error .assertion ∧
      absorption S c n os ps z2 = .error .assertion) := by
  have key : ∀ h s, integrate S c n os ps h ⟨s, [a]⟩ z2 = .error .assertion := fun h s => by
    simp only [integrate, List.length_singleton, ne_eq, not_true_eq_false, if_false]
    rw [show ([a] : List ℝ) ++ z2.data = a :: z2.data from rfl, S.rejects _ _ _ h1 h2]
  refine ⟨key _ _, fun ha => ?_⟩
  subst ha
  exact ⟨key _ _, key _ _, key _ _⟩

/-- `C113_raises`: limits 0, 2, 1. -/
example (c : Cls) (o : Obj) := C113_raises (c := c) (n := 100) (os := [o]) (a := 0) exact [] [1] ⟨[2], [2, 1]⟩ (by norm_num) (by norm_num)

/-- **C113** in particular no distance or lookback time to the present can be asked for: redshift 0 anywhere in the array, also alone, raises. -/
theorem C113_zero_raises (S : Solver) (ps : List ℕ) (z2 : Tensor) (h0 : 0 ∈ z2.data) :
    comoving S c n os ps z2 = .error .assertion ∧ lookback S c n os ps z2 = .error .assertion ∧
      absorption S c n os ps z2 = .error .assertion := by
  refine (C113_raises (c := c) (n := n) (os := os) (a := 0) S ps [] z2 (fun h => ?_) (fun h => ?_)).2 rfl
  · exact lt_irrefl _ ((List.pairwise_cons.mp h).1 0 h0)
  · exact lt_irrefl _ ((List.pairwise_cons.mp h).1 0 h0)

/-- `C113_zero_raises`: redshifts 1 and 0. -/
example (c : Cls) (o : Obj) := C113_zero_raises (c := c) (n := 100) (os := [o]) exact [] ⟨[2], [1, 0]⟩ (by simp)

/-- **C113** only one lower limit is accepted. -/
theorem C113_one_limit (S : Solver) (ps : List ℕ) (z1 z2 : Tensor) (h : z1.data.length ≠ 1) :
    comovingZ S c n os ps z1 z2 = .error .assertion := by
  simp only [comovingZ, integrate, if_pos h]

/-- `C113_one_limit`: two lower limits. -/
example (c : Cls) (o : Obj) := C113_one_limit (c := c) (n := 100) (os := [o]) exact [] ⟨[2], [0, 1]⟩ ⟨[1], [3]⟩ (by simp)

/-- **C113** the two drivers agree: for LambdaCDM the analytic driver returns the same comoving distance (C91). -/
theorem C113_agrees (S : Solver) {o : Obj} {E : ℝ → ℝ} {z1 z2 : ℝ} {solve : List ℝ → List ℂ} (hr : Reachable p c o)
    (U : Ellred.Universe p c o n E (min z1 z2)) (h1 : -1 < z1) (h2 : -1 < z2) (hne : z1 ≠ z2) (hs : Ellred.Solves solve) :
    ∃ v, comovingZ S c n [o] [] (scalar z1) (scalar z2) = .ok (scalar v) ∧
      Ellred.call3 solve c o n (fun L r1 r2 r3 => Ellred.comoving3 L r1 r2 r3 z1 z2) = .ok v := by
  refine ⟨_, ?_, Ellred.C91_comoving U hs⟩
  have hp : ∀ s ∈ uIcc z1 z2, 0 < E s := fun s hs' => U.pos s hs'.1
  have q : Query p c n [o] (fun _ => E) z1 (scalar z2).data :=
    { reachable := by simpa using hr
      depth := U.fuel
      e2 := by simpa using U.e2
      above := by simp [scalar, h1, h2]
      pos := by simpa [scalar] using hp
      nonempty := by simp [scalar]
      monotone := by simpa [scalar] using lt_or_gt_of_ne hne }
  have := C113_comoving S [] [] (scalar z2) q
  rw [scalar, this]
  simp only [scalar, List.append_nil, List.flatMap_cons, List.flatMap_nil, List.map_cons, List.map_nil]
  congr 3
  refine intervalIntegral.integral_congr fun s hs => ?_
  simp only [invEfunc]
  rw [show (-1 / 2 : ℝ) = -(1 / 2) by ring, Real.rpow_neg (hp s hs).le, ← Real.sqrt_eq_rpow, one_div]

/-- The hypotheses are met: a batch of two curved wCDM universes with radiation and different dark energy densities, three redshifts. -/
example (p : Phys) : ∃ c os E2, c.rad = true ∧ os.length = 2 ∧ Query p c 2 os E2 0 [1 / 2, 1, 3] := by
  have key : ∀ y : ℝ, ∃ o, Reachable p ⟨.w, true, false⟩ o ∧ o.Om0 = 0.3 ∧ o.Or0 = 0.1 ∧ o.w0 = -1 ∧ o.ode = some y := fun y =>
    ⟨_, ⟨1, [(.Om0, 0.3), (.Ode0, y), (.Or0, 0.1)], [], _, rfl, rfl⟩, by simp [setParams, assign], by simp [setParams, assign],
      by simp [setParams, assign], by simp [setParams, assign]⟩
  obtain ⟨o1, r1, hm1, hr1, hw1, ho1⟩ := key 0.6
  obtain ⟨o2, r2, hm2, hr2, hw2, ho2⟩ := key 0.5
  have hr : ∀ o ∈ [o1, o2], Reachable p ⟨.w, true, false⟩ o := by simp [r1, r2]
  refine ⟨⟨.w, true, false⟩, [o1, o2], fun o z => e2Val ⟨.w, true, false⟩ o (1 + z), rfl, rfl, ⟨hr, le_rfl,
    fun o ho z => e2func_settled _ o (reachable_settled p _ o (hr o ho)) 0 z, ?_, ?_, by simp, .inl ?_⟩⟩
  · simp; norm_num
  · intro o ho z hz s hs
    have hs0 : 0 ≤ s := by
      have : 0 ≤ z := by simp at hz; rcases hz with rfl | rfl | rfl <;> norm_num
      rw [uIcc_of_le this] at hs
      exact hs.1
    simp only [List.mem_cons, List.not_mem_nil, or_false] at ho
    rcases ho with rfl | rfl
    · simp only [e2Val, okVal, odeVal, sum0, deScale, hm1, hr1, hw1, ho1]
      norm_num
      positivity
    · simp only [e2Val, okVal, odeVal, sum0, deScale, hm2, hr2, hw2, ho2]
      norm_num
      positivity
  · simp; norm_num

/-! ### Overriding in subclasses -/

/-- **C113** a subclass of a driver class that overrides an integrand changes the integral; one that overrides the integral itself (here the
lookback time) is ignored: the definition in the class body is overwritten when the class is created. -/
theorem C113_override (bases : List (PyDict String Attr)) (body : PyDict String Attr) :
    (subclassDict bases body).get? "lookback_time_dimless" = some (.integral true (resolve (body :: bases) "lookback_time_integrand")) ∧
    (subclassDict bases body).get? "absorption_distance_dimless" = some (.integral true (resolve (body :: bases) "abs_distance_integrand")) ∧
    (subclassDict bases body).get? "comoving_distance_dimless_z1z2" = some (.integral false (resolve (body :: bases) "inv_efunc")) ∧
    ∀ k, k ≠ "lookback_time_dimless" → k ≠ "absorption_distance_dimless" → k ≠ "comoving_distance_dimless_z1z2" →
      (subclassDict bases body).get? k = body.get? k := by
  simp only [subclassDict, PyDict.get?_set]
  refine ⟨by simp, by simp, by simp, fun k h1 h2 h3 => ?_⟩
  simp [Ne.symm h1, Ne.symm h2, Ne.symm h3]

end Verif.Cosmo.Odeint
