import Verif.Roots.BatchLemmas

/-! # Batches of polynomials: C139 -/

namespace Verif.Roots.Batch

open Verif.Tensor

variable {Z : Shape} (sq cb : ℂ → ℂ) (eig : (n : ℕ) → Matrix (Fin n) (Fin n) ℂ → List ℂ)

theorem entries_length {α : Type} (ts : List (Tens α)) (i : List ℕ) : (entries ts i).length = ts.length := by simp [entries]

/-- The value of `companionT`. -/
theorem companionT_ok {ts : List (Tens ℂ)} (hn : 1 ≤ ts.length) (hZ : bcAll (ts.map (·.shape)) = some Z) :
    ∃ m, companionT ts = .ok m ∧ m.shape = ts.length :: ts.length :: Z ∧ ∀ i, ∀ r c : Fin (entries ts i).length,
      m.get (c.val :: r.val :: i) = companion (fun k => (entries ts i).get k) r c := by
  have hne : ts ≠ [] := by rintro rfl; simp at hn
  unfold companionT broadcast
  rw [if_neg hne, hZ]
  refine ⟨_, rfl, ?_, fun i r c => ?_⟩
  · simp; omega
  · simp only [companion, List.getD_cons_zero, List.getD_cons_succ, List.drop_succ_cons, List.drop_zero]
    by_cases hr : r.val = 0
    · rw [if_pos (by omega), if_pos hr, List.getD_eq_getElem _ _ c.isLt]; rfl
    · rw [if_neg (by omega), if_neg hr]

theorem eig_cast {n : ℕ} (cs : List ℂ) (hn : cs.length = n) (M : Matrix (Fin n) (Fin n) ℂ)
    (h : ∀ r c : Fin cs.length, M (r.cast hn) (c.cast hn) = companion (fun k => cs.get k) r c) :
    eig n M = eig cs.length (companion fun k => cs.get k) := by
  subst hn
  congr 1
  funext r c
  exact h r c

theorem solve_numeric (force : Bool) (cs : List ℂ) (h : ¬ (force = false ∧ (cs.length = 2 ∨ cs.length = 3 ∨ cs.length = 4))) :
    solve sq cb eig force cs = eig cs.length (companion fun k => cs.get k) := by
  cases force with
  | true => rfl
  | false =>
    match cs, h with
    | [], _ => rfl
    | [_], _ => rfl
    | [_, _], h => simp at h
    | [_, _, _], h => simp at h
    | [_, _, _, _], h => simp at h
    | _ :: _ :: _ :: _ :: _ :: _, _ => rfl

theorem solve_length (heig : EigSpec eig) (force : Bool) (cs : List ℂ) : (solve sq cb eig force cs).length = cs.length := by
  by_cases h : force = false ∧ (cs.length = 2 ∨ cs.length = 3 ∨ cs.length = 4)
  · obtain ⟨rfl, h⟩ := h
    match cs, h with
    | [_, _], _ => rfl
    | [_, _, _], _ => rfl
    | [_, _, _, _], _ => rfl
    | [], h => simp at h
    | [_], h => simp at h
    | _ :: _ :: _ :: _ :: _ :: _, h => simp at h
  · rw [solve_numeric sq cb eig force cs h]
    exact (heig _ _).1

/-- The value of `rootsT`. -/
theorem rootsT_ok (force : Bool) {ts : List (Tens ℂ)} (hn : 2 ≤ ts.length) (hZ : bcAll (ts.map (·.shape)) = some Z) :
    rootsT sq cb eig force ts = .ok (unbind ts.length ⟨Z, fun i => solve sq cb eig force (entries ts i)⟩) := by
  unfold rootsT
  simp only
  rw [if_neg (by omega), if_neg (by omega)]
  by_cases h : force = false ∧ (ts.length = 2 ∨ ts.length = 3 ∨ ts.length = 4)
  · rw [if_pos h]
    obtain ⟨rfl, h⟩ := h
    simp only [broadcast, hZ]
    rfl
  · rw [if_neg h]
    obtain ⟨m, hm, hs, hg⟩ := companionT_ok (by omega) hZ
    rw [hm]
    simp only [eigvals, hs, ne_eq, not_true_eq_false, if_false]
    congr 3
    funext i
    rw [solve_numeric sq cb eig force _ (by rw [entries_length]; exact h)]
    exact eig_cast eig _ (entries_length ts i) _ fun r c => hg i r c

theorem unbind_get {n : ℕ} {t : Tens (List ℂ)} {i : List ℕ} (h : (t.get i).length = n) : (unbind n t).map (·.get i) = t.get i := by
  refine List.ext_getElem (by simp [unbind, h]) fun k h1 h2 => ?_
  simp [unbind, Tens.map, List.getElem?_eq_getElem h2]

/-- **C139** `roots` on tensors: if the shapes of the `n ≥ 2` coefficients broadcast to `Z`, it returns `n` tensors of shape `Z`, and at
every index of `Z` they hold the roots, with multiplicity, of the polynomial whose coefficients stand at that index of the broadcast
coefficients. -/
theorem C139_roots (hs : IsPrincipalSqrt sq) (hcb : IsCbrt cb) (heig : EigSpec eig) (force : Bool) (ts : List (Tens ℂ))
    (hn : 2 ≤ ts.length) (hZ : bcAll (ts.map (·.shape)) = some Z)
    (hreg : force = false → ∀ i, Valid Z i → Regular (entries ts i)) :
    ∃ rs, rootsT sq cb eig force ts = .ok rs ∧ rs.length = ts.length ∧ (∀ r ∈ rs, r.shape = Z) ∧
      ∀ i, Valid Z i → AreRoots (entries ts i) (rs.map (·.get i)) := by
  refine ⟨_, rootsT_ok sq cb eig force hn hZ, by simp [unbind], fun r hr => ?_, fun i hi => ?_⟩
  · obtain ⟨k, -, rfl⟩ := List.mem_map.1 hr
    rfl
  · rw [unbind_get (by rw [solve_length sq cb eig heig, entries_length])]
    obtain ⟨rts, h1, h2⟩ := C30_roots sq cb hs hcb eig heig (fun _ => .error .valueError) force (entries ts i)
      (by rw [entries_length]; exact hn) fun hf => hreg hf i hi
    unfold forward at h1
    rw [if_neg (by simp [entries]; rintro rfl; simp at hn), if_neg (by simp [entries]; omega), allFin_map] at h1
    simp only [Except.ok.injEq] at h1
    have h3 : solve sq cb eig force (entries ts i) = rts := List.map_injective_iff.2 (fun _ _ h => Num.fin.inj h) h1
    simpa [h3] using h2

/-- **C139** no mixing: at every index the result is what `roots` returns for that polynomial alone. -/
theorem C139_elementwise (heig : EigSpec eig) (force : Bool) (ts rs : List (Tens ℂ)) (hn : 2 ≤ ts.length)
    (hZ : bcAll (ts.map (·.shape)) = some Z) (h : rootsT sq cb eig force ts = .ok rs)
    (eigBad : List Num → Except Verif.Roots.Err (List Num)) (i : List ℕ) :
    forward sq cb eig eigBad force ((entries ts i).map .fin) = .ok ((rs.map (·.get i)).map .fin) := by
  rw [rootsT_ok sq cb eig force hn hZ] at h
  obtain rfl := Except.ok.inj h
  rw [unbind_get (by rw [solve_length sq cb eig heig, entries_length])]
  unfold forward
  rw [if_neg (by simp [entries]; rintro rfl; simp at hn), if_neg (by simp [entries]; omega), allFin_map]

/-- **C139** the failures of `roots`: no coefficients, one coefficient, shapes that do not broadcast. -/
theorem C139_raises (force : Bool) (ts : List (Tens ℂ)) :
    (ts.length = 0 → rootsT sq cb eig force ts = .error .valueError) ∧
    (ts.length = 1 → rootsT sq cb eig force ts = .error .notImplemented) ∧
    (2 ≤ ts.length → bcAll (ts.map (·.shape)) = none → rootsT sq cb eig force ts = .error .runtime) := by
  refine ⟨fun h => by simp [rootsT, h], fun h => by simp [rootsT, h], fun hn h => ?_⟩
  unfold rootsT
  simp only
  rw [if_neg (by omega), if_neg (by omega)]
  have hne : ts ≠ [] := by rintro rfl; simp at hn
  split_ifs <;> simp [companionT, broadcast, h, hne]

/-- **C139** `companion_matrix` on tensors: `n × n` matrices in the last two dimensions whose characteristic polynomials are the
polynomials, for every index. -/
theorem C139_companion (ts : List (Tens ℂ)) (hn : 1 ≤ ts.length) (hZ : bcAll (ts.map (·.shape)) = some Z) :
    ∃ m, companionT ts = .ok m ∧ m.shape = ts.length :: ts.length :: Z ∧ ∀ i, Valid Z i → ∀ x,
      (Matrix.scalar (Fin ts.length) x - Matrix.of fun r c : Fin ts.length => m.get (c.val :: r.val :: i)).det = monicEval (entries ts i) x := by
  obtain ⟨m, hm, hs, hg⟩ := companionT_ok hn hZ
  refine ⟨m, hm, hs, fun i _ x => ?_⟩
  rw [← C25_companion_det]
  have key : ∀ (n : ℕ) (h : (entries ts i).length = n), (Matrix.scalar (Fin n) x - Matrix.of fun r c : Fin n => m.get (c.val :: r.val :: i)).det =
      (Matrix.scalar (Fin (entries ts i).length) x - companion fun k => (entries ts i).get k).det := by
    rintro n rfl
    congr 2
    ext r c
    exact hg i r c
  exact key _ (entries_length ts i)

/-! ### `sroots` -/

theorem insertIdx_append {α : Type} (x : α) (m : List α) : ∀ (l : List α) (p : ℕ), p ≤ l.length →
    (l ++ m).insertIdx p x = l.insertIdx p x ++ m
  | _, 0, _ => by simp
  | [], p + 1, h => by simp at h
  | a :: l, p + 1, h => by simp [insertIdx_append x m l p (by simpa using h)]

theorem reverse_insertIdx {α : Type} (l : List α) (p : ℕ) (x : α) (h : p ≤ l.length) :
    (l.insertIdx p x).reverse = l.reverse.insertIdx (l.length - p) x := by
  induction l generalizing p with
  | nil => simp at h; subst h; simp
  | cons a l ih =>
    cases p with
    | zero =>
      simp only [List.insertIdx_zero, List.reverse_cons, List.length_cons, Nat.sub_zero]
      have : l.length + 1 = (l.reverse ++ [a]).length := by simp
      rw [this, List.insertIdx_length_self]
    | succ p =>
      simp only [List.length_cons] at h
      simp only [List.insertIdx_succ_cons, List.reverse_cons, ih p (by omega), List.length_cons, Nat.add_sub_add_right]
      exact (insertIdx_append _ _ _ _ (by simp)).symm

/-- Position of the new dimension, counted from the first. -/
def newDim (dim : ℤ) (d : ℕ) : ℕ := if dim < 0 then (dim + d + 1).toNat else dim.toNat

theorem stackDim_ok {dim : ℤ} {t : Tens ℂ} {ts : List (Tens ℂ)} (hs : ∀ u ∈ ts, u.shape = t.shape)
    (h1 : -(t.shape.length + 1 : ℤ) ≤ dim) (h2 : dim ≤ t.shape.length) :
    ∃ u, stackDim dim (t :: ts) = .ok u ∧ u.shape.reverse = t.shape.reverse.insertIdx (newDim dim t.shape.length) (t :: ts).length ∧
      ∀ (J : List ℕ) (k : ℕ) (hk : k < (t :: ts).length), J.length = t.shape.length →
        u.get (J.insertIdx (newDim dim t.shape.length) k).reverse = ((t :: ts)[k]).get J.reverse := by
  unfold stackDim
  simp only
  rw [if_neg (by simpa using hs), if_neg (by omega)]
  set d := t.shape.length with hd
  set p := if dim < 0 then (-dim - 1).toNat else ((d : ℤ) - dim).toNat with hp
  have hpd : p ≤ d := by rw [hp]; split_ifs <;> omega
  have hnew : newDim dim d = d - p := by rw [hp, newDim]; split_ifs <;> omega
  refine ⟨_, rfl, ?_, fun J k hk hJ => ?_⟩
  · simp only
    rw [reverse_insertIdx _ _ _ hpd, hnew]
  · have e : (J.insertIdx (newDim dim d) k).reverse = J.reverse.insertIdx p k := by
      rw [reverse_insertIdx _ _ _ (by omega), hnew, hJ]
      congr 1
      omega
    have e2 : (J.reverse.insertIdx p k).getD p 0 = k := by
      rw [List.getD_eq_getElem _ _ (by rw [List.length_insertIdx_of_le_length (by simp [hJ, hpd])]; simp [hJ]; omega),
        List.getElem_insertIdx_self]
    simp only
    rw [e, e2, List.eraseIdx_insertIdx_self, List.getD_eq_getElem _ _ hk]

/-- **C139** `sroots(*coeffs, dim=dim)`: the roots stacked along a new dimension `dim` (counted from the first dimension, from the last if
negative); `sroots` raises `IndexError` exactly if there is no such dimension. Shapes and indices are listed from the first dimension here. -/
theorem C139_sroots (force : Bool) (dim : ℤ) (ts rs : List (Tens ℂ)) (hn : 2 ≤ ts.length) (hZ : bcAll (ts.map (·.shape)) = some Z)
    (h : rootsT sq cb eig force ts = .ok rs) :
    (-(Z.length + 1 : ℤ) ≤ dim → dim ≤ Z.length → ∃ u, srootsT sq cb eig force dim ts = .ok u ∧
      u.shape.reverse = Z.reverse.insertIdx (if dim < 0 then dim + Z.length + 1 else dim).toNat ts.length ∧
      ∀ (J : List ℕ) (k : ℕ) (hk : k < rs.length), Valid Z J.reverse →
        u.get (J.insertIdx (if dim < 0 then dim + Z.length + 1 else dim).toNat k).reverse = (rs[k]).get J.reverse) ∧
    (dim < -(Z.length + 1 : ℤ) ∨ (Z.length : ℤ) < dim → srootsT sq cb eig force dim ts = .error .index) := by
  have hnew : ∀ d : ℕ, newDim dim d = (if dim < 0 then dim + d + 1 else dim).toNat := fun d => by
    unfold newDim; split_ifs <;> rfl
  have hr := h
  rw [rootsT_ok sq cb eig force hn hZ] at hr
  obtain hr := Except.ok.inj hr
  have hlen : rs.length = ts.length := by rw [← hr]; simp [unbind]
  have hsh : ∀ r ∈ rs, r.shape = Z := by
    rw [← hr]
    intro r hr
    obtain ⟨k, -, rfl⟩ := List.mem_map.1 hr
    rfl
  obtain ⟨t, us, rfl⟩ : ∃ t us, rs = t :: us := by
    cases rs with
    | nil => simp at hlen; omega
    | cons t us => exact ⟨t, us, rfl⟩
  have ht : t.shape = Z := hsh t (by simp)
  have hu : ∀ u ∈ us, u.shape = t.shape := fun u hu => by rw [ht]; exact hsh u (by simp [hu])
  unfold srootsT
  rw [h]
  refine ⟨fun h1 h2 => ?_, fun h1 => ?_⟩
  · obtain ⟨u, h3, h4, h5⟩ := stackDim_ok hu (dim := dim) (by rw [ht]; exact h1) (by rw [ht]; exact h2)
    rw [ht, hnew] at h4 h5
    exact ⟨u, h3, by rw [h4, hlen], fun J k hk hJ => h5 J k hk (by rw [← List.length_reverse]; exact hJ.length_eq)⟩
  · unfold stackDim
    simp only
    rw [if_neg (by simpa using hu), if_pos (by rw [ht]; exact h1)]

/-! ### `vieta` -/

theorem fold_err {f : ℂ → ℂ → ℂ} : ∀ (us : List (Tens ℂ)) (t : Tens ℂ), bcAll ((t :: us).map (·.shape)) = none →
    fold f t us = .error .runtime
  | [], t, h => by
    obtain ⟨Y, hY, -⟩ := bcAll_of_le (l := [t.shape]) (W := t.shape) (by simp [Le.refl])
    simp [hY] at h
  | u :: us, t, h => by
    cases hb : bc t.shape u.shape with
    | none => simp [fold, op, map2, hb]
    | some Y =>
      obtain ⟨v, hv, hs, -⟩ := op_ok (f := f) hb
      simp only [fold, hv]
      apply fold_err us v
      by_contra hc
      obtain ⟨Z, hc⟩ := Option.ne_none_iff_exists'.1 hc
      have h1 := bcAll_le hc
      obtain ⟨W, hW, -⟩ := bcAll_of_le (l := (t :: u :: us).map (·.shape)) (W := Z) fun s hs' => by
        simp only [List.map_cons, List.mem_cons] at hs'
        have hY : Le Y Z := h1 Y (by simp [hs])
        rcases hs' with rfl | rfl | hs'
        · exact (bc_le hb).1.trans hY
        · exact (bc_le hb).2.trans hY
        · exact h1 _ (by simp [hs'])
      rw [hW] at h
      exact absurd h (by simp)

/-- **C139** `vieta` on tensors: if the shapes of the roots broadcast to `Z` it returns as many tensors of shape `Z`, and at every index
they hold the coefficients of the monic polynomial with the roots at that index; otherwise it raises `RuntimeError`. -/
theorem C139_vieta (rts : List (Tens ℂ)) (hn : 1 ≤ rts.length) :
    (∀ Z, bcAll (rts.map (·.shape)) = some Z → ∃ cs, vietaT rts = .ok cs ∧ cs.length = rts.length ∧ (∀ c ∈ cs, c.shape = Z) ∧
      ∀ i, Valid Z i → AreRoots (cs.map (·.get i)) (entries rts i)) ∧
    (bcAll (rts.map (·.shape)) = none → vietaT rts = .error .runtime) := by
  refine ⟨fun Z hZ => ?_, fun h => ?_⟩
  · obtain ⟨cs, h1, h2, h3, h4⟩ := vietaT_ok hZ
    refine ⟨cs, h1, h2, h3, fun i hi => ?_⟩
    obtain ⟨cs', h5, h6⟩ := C24_vieta (entries rts i)
    rw [h4 i (by rw [hi.length_eq])] at h5
    obtain rfl := Except.ok.inj h5
    have e : entries cs i = cs.map (·.get i) := List.map_congr_left fun c hc => by rw [h3 c hc, proj_valid hi]
    rwa [← e]
  · obtain ⟨n, hn⟩ : ∃ n, rts.length = n + 1 := ⟨rts.length - 1, by omega⟩
    have h1 : ∀ l : List (Tens ℂ), combos 1 l = l.map fun t => [t] := by
      intro l
      induction l with
      | nil => rfl
      | cons t ts ih => simp [combos, ih]
    have h2 : ∀ l : List (Tens ℂ), mapE productT (l.map fun t => [t]) = .ok l := by
      intro l
      induction l with
      | nil => rfl
      | cons t ts ih => simp [mapE, productT, fold, ih]
    have h3 : esymT 1 rts = .error .runtime := by
      unfold esymT
      rw [h1, h2]
      apply fold_err
      by_contra hc
      obtain ⟨Z, hc⟩ := Option.ne_none_iff_exists'.1 hc
      obtain ⟨W, hW, -⟩ := bcAll_sub (l' := rts.map (·.shape)) hc fun s hs => by simp [hs]
      rw [hW] at h
      exact absurd h (by simp)
    unfold vietaT
    rw [hn, List.range_succ_eq_map]
    simp [mapE, h3]

/-- **C139** the round trip: `vieta` of the roots gives back the coefficients, broadcast against each other. -/
theorem C139_round_trip (hs : IsPrincipalSqrt sq) (hcb : IsCbrt cb) (heig : EigSpec eig) (force : Bool) (ts : List (Tens ℂ))
    (hn : 2 ≤ ts.length) (hZ : bcAll (ts.map (·.shape)) = some Z)
    (hreg : force = false → ∀ i, Valid Z i → Regular (entries ts i)) :
    ∃ rs cs, rootsT sq cb eig force ts = .ok rs ∧ vietaT rs = .ok cs ∧ (∀ c ∈ cs, c.shape = Z) ∧
      ∀ i, Valid Z i → cs.map (·.get i) = entries ts i := by
  obtain ⟨rs, h1, h2, h3, h4⟩ := C139_roots sq cb eig hs hcb heig force ts hn hZ hreg
  have hb : bcAll (rs.map (·.shape)) = some Z := by
    rw [bcAll_eq_some]
    obtain ⟨r, hr⟩ : ∃ r, r ∈ rs := List.exists_mem_of_length_pos (by omega)
    refine ⟨fun s hs => ?_, fun W hW => ?_⟩
    · obtain ⟨r, hr, rfl⟩ := List.mem_map.1 hs
      rw [h3 r hr]; exact Le.refl _
    · rw [← h3 r hr]
      exact hW _ (List.mem_map_of_mem hr)
  obtain ⟨cs, h5, h6, h7, h8⟩ := (C139_vieta rs (by omega)).1 Z hb
  refine ⟨rs, cs, h1, h5, h7, fun i hi => ?_⟩
  have e : entries rs i = rs.map (·.get i) := List.map_congr_left fun c hc => by rw [h3 c hc, proj_valid hi]
  have h9 := h8 i hi
  have h10 := h4 i hi
  rw [e] at h9
  exact monicEval_inj _ _ (h9.1.symm.trans h10.1) fun x => (h9.2 x).symm.trans (h10.2 x)

end Verif.Roots.Batch
