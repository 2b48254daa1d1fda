import Verif.Roots.Batch

/-! # Gradients of batches of polynomials: C140 -/

namespace Verif.Roots.Batch

open Verif.Tensor

variable {Z : Shape}

/-! ### Lemmas -/

theorem mem_indices : ∀ {s : Shape} {i : List ℕ}, i ∈ indices s ↔ Valid s i
  | [], i => by
    simp only [indices, List.mem_singleton]
    exact ⟨fun h => h ▸ .nil, fun h => by cases h; rfl⟩
  | d :: s, i => by
    simp only [indices, List.mem_flatMap, List.mem_range, List.mem_map]
    constructor
    · rintro ⟨k, hk, j, hj, rfl⟩
      exact .cons hk (mem_indices.1 hj)
    · intro h
      cases h with
      | cons h1 h2 => exact ⟨_, h1, _, mem_indices.2 h2, rfl⟩

theorem nodup_indices : ∀ s : Shape, (indices s).Nodup
  | [] => by simp [indices]
  | d :: s => by
    unfold indices
    rw [List.nodup_flatMap]
    refine ⟨fun k _ => (nodup_indices s).map fun a b h => (List.cons.inj h).2, ?_⟩
    refine List.nodup_range.imp fun {a b} hab x hx hy => ?_
    obtain ⟨u, -, rfl⟩ := List.mem_map.1 hx
    obtain ⟨v, -, h⟩ := List.mem_map.1 hy
    exact hab (List.cons.inj h).1.symm

/-- The roots at index `i`. -/
def at' (rts : List (Tens ℂ)) (i : List ℕ) : List ℂ := rts.map (·.get i)

theorem at_length (rts : List (Tens ℂ)) (i : List ℕ) : (at' rts i).length = rts.length := by simp [at']

theorem entries_at {rts : List (Tens ℂ)} (h : ∀ r ∈ rts, r.shape = Z) {i : List ℕ} (hi : Valid Z i) : entries rts i = at' rts i :=
  List.map_congr_left fun r hr => by rw [h r hr, proj_valid hi]

theorem bcAll_same {rts : List (Tens ℂ)} (hn : rts ≠ []) (h : ∀ r ∈ rts, r.shape = Z) : bcAll (rts.map (·.shape)) = some Z := by
  rw [bcAll_eq_some]
  obtain ⟨r, hr⟩ := List.exists_mem_of_ne_nil _ hn
  refine ⟨fun s hs => ?_, fun W hW => ?_⟩
  · obtain ⟨r, hr, rfl⟩ := List.mem_map.1 hs
    rw [h r hr]; exact Le.refl _
  · rw [← h r hr]
    exact hW _ (List.mem_map_of_mem hr)

theorem backwardRows_ok {rts : List (Tens ℂ)} (hn : 2 ≤ rts.length) (h : ∀ r ∈ rts, r.shape = Z) :
    ∃ us, backwardRows rts = .ok us ∧ us ≠ [] ∧ (∀ u ∈ us, u.shape = Z) ∧ ∀ i, Valid Z i →
      at' us i = ((combos (rts.length - 1) (at' rts i).reverse).map fullCoeffs).flatten := by
  have hc : ∀ r ∈ combos (rts.length - 1) rts.reverse, ∃ y, backwardRow r = .ok y ∧
        (y ≠ [] ∧ (∀ u ∈ y, u.shape = Z) ∧ ∀ i, Valid Z i → at' y i = fullCoeffs (at' r i)) := by
    intro r hr
    have hl := combos_length r hr
    have hrs : ∀ t ∈ r, t.shape = Z := fun t ht => h t (by simpa using mem_of_combos hr ht)
    have hne : r ≠ [] := by rintro rfl; simp at hl; omega
    obtain ⟨cs, h1, h2, h3, h4⟩ := vietaT_ok (bcAll_same hne hrs)
    refine ⟨_, by rw [backwardRow, h1], by simp, fun u hu => ?_, fun i hi => ?_⟩
    · rcases List.mem_cons.1 hu with rfl | hu
      · match r, hne with
        | t :: r, _ => exact hrs t (by simp)
      · exact h3 u hu
    · have h5 := h4 i (by rw [hi.length_eq])
      rw [vieta_ok, entries_at h3 hi, entries_at hrs hi] at h5
      simp only [at', List.map_cons, fullCoeffs, List.cons.injEq, true_and]
      exact (Except.ok.inj h5).symm
  obtain ⟨rows, h1, hF⟩ := mapE_ok' _ hc
  have hne : rows ≠ [] := by
    intro h0
    subst h0
    have h2 := hF.length_eq
    have h3 := combos_pred rts.reverse (by intro h; simp at h; subst h; simp at hn)
    rw [List.length_reverse] at h3
    rw [h3] at h2
    simp at h2; subst h2; simp at hn
  refine ⟨rows.flatten, by simp [backwardRows, h1], ?_, ?_, fun i hi => ?_⟩
  · obtain ⟨y, ys, rfl⟩ := List.exists_cons_of_ne_nil hne
    have h2 := ((List.forall₂_iff_get.1 hF).2 0 (by rw [hF.length_eq]; simp) (by simp)).1
    simp at h2
    simp [h2]
  · intro u hu
    obtain ⟨y, hy, huy⟩ := List.mem_flatten.1 hu
    obtain ⟨k, hk, rfl⟩ := List.getElem_of_mem hy
    exact ((List.forall₂_iff_get.1 hF).2 k (by rw [hF.length_eq]; exact hk) hk).2.1 u huy
  · have e : (at' rts i).reverse = rts.reverse.map (·.get i) := by simp [at']
    rw [e, combos_map, List.map_map]
    unfold at'
    rw [List.map_flatten]
    congr 1
    refine List.ext_get (by simp [hF.length_eq]) fun k h2 h3 => ?_
    have := ((List.forall₂_iff_get.1 hF).2 k (by simpa using h3) (by simpa using h2)).2.2 i hi
    simpa [at'] using this

theorem backwardMatrix_val (l : List ℂ) (h : l ≠ []) (n : ℕ) (hn : l.length = n) (i j : Fin n) :
    ((combos (n - 1) l.reverse).map fullCoeffs).flatten.getD (i.val * n + j.val) 0 = (fullCoeffs (l.eraseIdx i)).getD j 0 := by
  subst hn
  have h1 := backwardMatrix_ok l h
  unfold backwardMatrix at h1
  rw [Verif.Roots.mapE_ok _ (fullCoeffs (R := ℂ)) _ (fun r _ => by rw [vieta_ok]; rfl)] at h1
  exact congrFun (congrFun (Except.ok.inj h1) i) j

/-- The matrix is singular exactly if a root is repeated. -/
theorem det_eq_zero_iff (r : List ℂ) :
    (Matrix.of fun i j : Fin r.length => (fullCoeffs (r.eraseIdx i)).getD j 0).det = 0 ↔ ¬ r.Nodup := by
  constructor
  · intro h hd
    by_cases hr : r = []
    · subst hr; simp at h
    have hinv : (Matrix.of fun i j => (fullCoeffs (r.eraseIdx i)).getD j 0 : Matrix (Fin r.length) (Fin r.length) ℂ) *
        (Matrix.of fun j m => r.get m ^ (r.length - 1 - j.val) / ∏ k ∈ Finset.univ.erase m, (r.get m - r.get k)) = 1 := by
      ext i m
      rw [Matrix.mul_apply]
      simp only [Matrix.of_apply, ← mul_div_assoc]
      rw [← Finset.sum_div, backwardMatrix_mul]
      by_cases him : i = m
      · subst him
        rw [Matrix.one_apply_eq, div_self (prod_ne_zero_of_nodup r hd i)]
      · rw [Matrix.one_apply_ne him, Finset.prod_eq_zero (i := m), zero_div]
        · simp [Ne.symm him]
        · simp
    have := congrArg Matrix.det hinv
    rw [Matrix.det_mul, h, zero_mul, Matrix.det_one] at this
    exact zero_ne_one this
  · intro hd
    rw [List.nodup_iff_injective_get] at hd
    simp only [Function.Injective, not_forall] at hd
    obtain ⟨a, b, hab, hne⟩ := hd
    rw [← Matrix.exists_mulVec_eq_zero_iff]
    refine ⟨fun j => r.get a ^ (r.length - 1 - j.val), fun h0 => ?_, ?_⟩
    · have := congrFun h0 ⟨r.length - 1, by have := a.isLt; omega⟩
      simp at this
    · ext i
      simp only [Matrix.mulVec, dotProduct, Matrix.of_apply, Pi.zero_apply]
      rw [backwardMatrix_mul]
      by_cases hia : i = a
      · exact Finset.prod_eq_zero (i := b) (by simp [hia, Ne.symm hne]) (by rw [hab]; ring)
      · exact Finset.prod_eq_zero (i := a) (by simp [Ne.symm hia]) (by ring)

theorem inv_val (r : List ℂ) (hr : r ≠ []) (hd : r.Nodup) :
    (-(Matrix.of fun i j : Fin r.length => (fullCoeffs (r.eraseIdx i)).getD j 0)⁻¹) =
      Matrix.of fun j m : Fin r.length => - r.get m ^ (r.length - 1 - j.val) / ∏ k ∈ Finset.univ.erase m, (r.get m - r.get k) := by
  have h := grads_ok r hr hd
  unfold grads at h
  rw [backwardMatrix_ok r hr] at h
  exact Except.ok.inj h

/-- The value of `gradsT`. -/
theorem gradsT_val {rts : List (Tens ℂ)} (hn : 2 ≤ rts.length) (h : ∀ r ∈ rts, r.shape = Z) :
    ((∃ i, Valid Z i ∧ ¬ (at' rts i).Nodup) → gradsT rts = .error .linalg) ∧
    ((∀ i, Valid Z i → (at' rts i).Nodup) → ∃ g, gradsT rts = .ok g ∧ g.shape = Z ∧ ∀ i, Valid Z i → ∀ j m,
      g.get i j m = - (rts.get m).get i ^ (rts.length - 1 - j) / ∏ k ∈ Finset.univ.erase m, ((rts.get m).get i - (rts.get k).get i)) := by
  obtain ⟨us, h1, h2, h3, h4⟩ := backwardRows_ok hn h
  obtain ⟨t, ts, rfl⟩ := List.exists_cons_of_ne_nil h2
  have ht : t.shape = Z := h3 t (by simp)
  have hts : ∀ u ∈ ts, u.shape = t.shape := fun u hu => by rw [ht]; exact h3 u (by simp [hu])
  have hM : ∀ i, Valid Z i → (fun r c : Fin rts.length => ((t :: ts).map fun u => u.get i).getD (r.val * rts.length + c.val) 0) =
      (Matrix.of fun a b : Fin rts.length => (fullCoeffs ((at' rts i).eraseIdx a)).getD b 0) := by
    intro i hi
    ext r c
    have h5 := h4 i hi
    unfold at' at h5
    rw [h5]
    exact backwardMatrix_val (at' rts i) (by simp [at']; rintro rfl; simp at hn) _ (at_length _ _) r c
  have hcast : ∀ (n : ℕ) (r : List ℂ) (hr : r.length = n),
      (Matrix.of fun a b : Fin n => (fullCoeffs (r.eraseIdx a)).getD b 0).det = 0 ↔ ¬ r.Nodup := by
    rintro n r rfl; exact det_eq_zero_iff r
  have hcast2 : ∀ (n : ℕ) (r : List ℂ) (hr : r.length = n), r ≠ [] → r.Nodup →
      (-(Matrix.of fun a b : Fin n => (fullCoeffs (r.eraseIdx a)).getD b 0)⁻¹) = Matrix.of fun j m : Fin n =>
        - r.get (m.cast hr.symm) ^ (n - 1 - j) / ∏ k ∈ Finset.univ.erase m, (r.get (m.cast hr.symm) - r.get (k.cast hr.symm)) := by
    rintro n r rfl; exact inv_val r
  unfold gradsT
  simp only
  rw [h1]
  simp only
  rw [if_neg (by simpa using hts)]
  refine ⟨fun hd => ?_, fun hd => ?_⟩
  · rw [if_pos]
    obtain ⟨i, hi, hd⟩ := hd
    refine ⟨i, by rw [ht]; exact mem_indices.2 hi, ?_⟩
    rw [hM i hi]
    exact (hcast _ _ (at_length _ _)).2 hd
  · rw [if_neg]
    · refine ⟨_, rfl, ht, fun i hi j m => ?_⟩
      simp only
      rw [hM i hi, hcast2 _ _ (at_length _ _) (by simp [at']; rintro rfl; simp at hn) (hd i hi)]
      simp [at']
      rfl
    · rintro ⟨i, hi, hd'⟩
      rw [ht] at hi
      rw [hM i (mem_indices.1 hi)] at hd'
      exact (hcast _ _ (at_length _ _)).1 hd' (hd i (mem_indices.1 hi))

theorem backwardT_ok {rts gouts : List (Tens ℂ)} (hn : 2 ≤ rts.length) (h : ∀ r ∈ rts, r.shape = Z)
    (hd : ∀ i, Valid Z i → (at' rts i).Nodup) :
    ∃ ws, backwardT rts gouts = .ok ws ∧ ws.length = rts.length ∧ (∀ w ∈ ws, w.shape = Z) ∧
      ∀ i, Valid Z i → ∀ j : Fin rts.length, (ws.getD j ⟨[], fun _ => 0⟩).get i = ∑ m : Fin rts.length, (starRingEnd ℂ)
        (- (rts.get m).get i ^ (rts.length - 1 - j.val) / ∏ k ∈ Finset.univ.erase m, ((rts.get m).get i - (rts.get k).get i)) *
          (gouts.getD m ⟨[], fun _ => 0⟩).get i := by
  obtain ⟨g, h1, h2, h3⟩ := (gradsT_val hn h).2 hd
  refine ⟨_, by rw [backwardT, h1], by simp, fun w hw => ?_, fun i hi j => ?_⟩
  · obtain ⟨k, -, rfl⟩ := List.mem_map.1 hw
    exact h2
  · rw [List.getD_eq_getElem _ _ (by simp)]
    simp only [List.getElem_map, List.getElem_finRange, Fin.cast_mk, Fin.eta]
    exact Finset.sum_congr rfl fun m _ => by rw [h3 i hi j m]

/-- Summing a broadcast gradient back. -/
theorem sumTo_inner {s : Shape} (hs : Le s Z) (w : Tens ℂ) (hw : w.shape = Z) (δ : List ℕ → ℂ) :
    ((indices s).map fun a => (starRingEnd ℂ) ((sumTo s w).get a) * δ a).sum =
      ((indices Z).map fun i => (starRingEnd ℂ) (w.get i) * δ (proj s i)).sum := by
  have key : ∀ L : List (List ℕ), (∀ i ∈ L, proj s i ∈ indices s) →
      ((indices s).map fun a => (starRingEnd ℂ) ((L.filter fun i => proj s i = a).map w.get).sum * δ a).sum =
        (L.map fun i => (starRingEnd ℂ) (w.get i) * δ (proj s i)).sum := by
    intro L
    induction L with
    | nil => intro _; simp
    | cons i L ih =>
      intro hL
      have e : ∀ a, (((i :: L).filter fun i => proj s i = a).map w.get).sum =
          (if proj s i = a then w.get i else 0) + ((L.filter fun i => proj s i = a).map w.get).sum := by
        intro a
        by_cases h : proj s i = a <;> simp [h]
      simp only [e, map_add, add_mul, List.map_cons, List.sum_cons]
      rw [List.sum_map_add, ih fun j hj => hL j (by simp [hj])]
      congr 1
      rw [← List.sum_toFinset _ (nodup_indices s), Finset.sum_eq_single (proj s i)]
      · simp
      · intro b _ hb
        simp [Ne.symm hb]
      · intro hni
        exact absurd (List.mem_toFinset.2 (hL i (by simp))) hni
  simp only [sumTo, hw]
  exact key _ fun i hi => mem_indices.2 (valid_proj hs (mem_indices.1 hi))

theorem sum_list_comm {α : Type} {n : ℕ} (L : List α) (f : Fin n → α → ℂ) :
    ∑ j, (L.map (f j)).sum = (L.map fun a => ∑ j, f j a).sum := by
  induction L with
  | nil => simp
  | cons a L ih => simp [Finset.sum_add_distrib, ih]

/-! ### C140 -/

/-- **C140** the backward pass raises `LinAlgError` exactly if *some* polynomial of the batch has a repeated root. -/
theorem C140_raises_iff (rts gouts : List (Tens ℂ)) (hn : 2 ≤ rts.length) (h : ∀ r ∈ rts, r.shape = Z) :
    backwardT rts gouts = .error .linalg ↔ ∃ i, Valid Z i ∧ ¬ (rts.map (·.get i)).Nodup := by
  constructor
  · intro he
    by_contra hc
    push Not at hc
    obtain ⟨ws, h1, -⟩ := backwardT_ok (gouts := gouts) hn h hc
    rw [h1] at he
    exact absurd he (by simp)
  · intro hd
    rw [backwardT, (gradsT_val hn h).1 hd]

/-- **C140** otherwise it returns one tensor per coefficient, of the shape of the roots; the entry at index `i` for coefficient `j` is
`∑ₘ conj(∂rₘ/∂cⱼ) · grad_outputsₘ[i]` with `∂rₘ/∂cⱼ = -rₘ^(n-1-j) / ∏_{k≠m} (rₘ - rₖ)`, all roots taken at `i`. -/
theorem C140_backward (rts gouts : List (Tens ℂ)) (hn : 2 ≤ rts.length) (h : ∀ r ∈ rts, r.shape = Z)
    (hd : ∀ i, Valid Z i → (rts.map (·.get i)).Nodup) :
    ∃ ws, backwardT rts gouts = .ok ws ∧ ws.length = rts.length ∧ (∀ w ∈ ws, w.shape = Z) ∧
      ∀ i, Valid Z i → ∀ j : Fin rts.length, (ws.getD j ⟨[], fun _ => 0⟩).get i = ∑ m : Fin rts.length, (starRingEnd ℂ)
        (- (rts.get m).get i ^ (rts.length - 1 - j.val) / ∏ k ∈ Finset.univ.erase m, ((rts.get m).get i - (rts.get k).get i)) *
          (gouts.getD m ⟨[], fun _ => 0⟩).get i :=
  backwardT_ok hn h hd

/-- **C140** the gradients of the coefficients that autograd accumulates: let `rs = roots(*ts)`, all polynomials of the batch with simple
roots, and `W = sum_to(backward(grad_outputs))` with `W[j]` of the shape of coefficient `j`. For every perturbation `δ` of the coefficients
(of their shapes, broadcast like them) the roots move with velocities `v` — to first order in `t`, `rₘ + t vₘ` stays a root of the
polynomial with coefficients `c + t δ`, at every index — and `∑ⱼ ⟨W[j], δ[j]⟩ = ∑ₘ ⟨grad_outputs[m], vₘ⟩`, the inner products summed over
all entries and conjugate-linear in the first argument. -/
theorem C140_vjp (ts rs gouts : List (Tens ℂ)) (hn : 2 ≤ ts.length) (hZ : bcAll (ts.map (·.shape)) = some Z)
    (hl : rs.length = ts.length) (hsh : ∀ r ∈ rs, r.shape = Z) (hroots : ∀ i, Valid Z i → AreRoots (entries ts i) (rs.map (·.get i)))
    (hd : ∀ i, Valid Z i → (rs.map (·.get i)).Nodup) :
    ∃ ws, backwardT rs gouts = .ok ws ∧ ∀ δ : List (Tens ℂ), δ.map (·.shape) = ts.map (·.shape) →
      ∃ v : ℕ → List ℕ → ℂ,
        (∀ i, Valid Z i → ∀ (m : ℕ) (hm : m < rs.length), HasDerivAt (fun t : ℝ =>
          monicEval (List.zipWith (fun c d => c + (t : ℂ) * d) (entries ts i) (entries δ i)) ((rs[m]).get i + (t : ℂ) * v m i)) 0 0) ∧
        ∑ j : Fin ts.length, ((indices (ts.get j).shape).map fun a =>
            (starRingEnd ℂ) ((sumTo (ts.get j).shape (ws.getD j ⟨[], fun _ => 0⟩)).get a) * (δ.getD j ⟨[], fun _ => 0⟩).get a).sum =
          ((indices Z).map fun i => ∑ m : Fin rs.length, (starRingEnd ℂ) ((gouts.getD m ⟨[], fun _ => 0⟩).get i) * v m i).sum := by
  have hn' : 2 ≤ rs.length := by omega
  obtain ⟨ws, h1, h2, h3, h4⟩ := backwardT_ok (gouts := gouts) hn' hsh hd
  refine ⟨ws, h1, fun δ hδ => ?_⟩
  have hδl : δ.length = ts.length := by simpa using congrArg List.length hδ
  let J : List ℕ → Fin rs.length → Fin rs.length → ℂ := fun i j m =>
    - (rs.get m).get i ^ (rs.length - 1 - j.val) / ∏ k ∈ Finset.univ.erase m, ((rs.get m).get i - (rs.get k).get i)
  refine ⟨fun m i => if hm : m < rs.length then ∑ j : Fin rs.length, J i j ⟨m, hm⟩ * (entries δ i).getD j 0 else 0, ?_, ?_⟩
  · intro i hi m hm
    have hlen : (rs.map (·.get i)).length = rs.length := by simp
    obtain ⟨g, hg, hder⟩ := C31_first_order (entries ts i) (entries δ i) (by rw [entries_length, entries_length, hδl])
      (rs.map (·.get i)) (by simp; rintro rfl; simp at hn') (hd i hi) (hroots i hi) ⟨m, by rw [hlen]; exact hm⟩
    rw [grads_ok _ (by simp; rintro rfl; simp at hn') (hd i hi)] at hg
    obtain rfl := Except.ok.inj hg
    convert hder using 5
    · simp
    · simp only [dif_pos hm]
      refine Fintype.sum_equiv (finCongr hlen.symm) _ _ fun j => ?_
      simp only [J, Matrix.of_apply, finCongr_apply, Fin.val_cast, hlen]
      congr 2
      · simp
      · have he : (Finset.univ.erase (⟨m, hm⟩ : Fin rs.length)).map (finCongr hlen.symm).toEmbedding =
            Finset.univ.erase (⟨m, by rw [hlen]; exact hm⟩ : Fin (rs.map (·.get i)).length) := by
          ext k
          simp only [Finset.mem_map, Finset.mem_erase, Finset.mem_univ, and_true, Equiv.coe_toEmbedding, finCongr_apply]
          constructor
          · rintro ⟨k', hk', rfl⟩ hh
            exact hk' (Fin.ext (by simpa using congrArg Fin.val hh))
          · intro hk
            exact ⟨k.cast hlen, fun hh => hk (Fin.ext (by simpa using congrArg Fin.val hh)), by simp⟩
        rw [← he, Finset.prod_map]
        simp
  · have hle : ∀ j : Fin ts.length, Le (ts.get j).shape Z := fun j => bcAll_le hZ _ (List.mem_map_of_mem (List.get_mem _ _))
    have hws : ∀ j : Fin ts.length, (ws.getD j ⟨[], fun _ => 0⟩).shape = Z := fun j => by
      rw [List.getD_eq_getElem _ _ (by rw [h2, hl]; exact j.isLt)]
      exact h3 _ (List.getElem_mem _)
    have e1 : ∀ j : Fin ts.length, ∀ i, (δ.getD j ⟨[], fun _ => 0⟩).get (proj (ts.get j).shape i) = (entries δ i).getD j 0 := by
      intro j i
      have hj : j.val < δ.length := by rw [hδl]; exact j.isLt
      rw [List.getD_eq_getElem _ _ hj, List.getD_eq_getElem _ _ (by rw [entries_length]; exact hj)]
      simp only [entries, List.getElem_map]
      have : δ[j.val].shape = (ts.get j).shape := by
        have := congrArg (fun l => l[j.val]?) hδ
        simpa [List.getElem?_eq_getElem hj] using this
      rw [this]
    rw [Finset.sum_congr rfl fun j _ => sumTo_inner (hle j) _ (hws j) _, sum_list_comm]
    refine congrArg List.sum (List.map_congr_left fun i hi => ?_)
    have hv := mem_indices.1 hi
    simp only [e1]
    rw [Fintype.sum_equiv (finCongr hl.symm) _ (fun j : Fin rs.length => (starRingEnd ℂ) ((ws.getD j ⟨[], fun _ => 0⟩).get i) *
      (entries δ i).getD j 0) fun j => by simp]
    simp only [h4 i hv, map_sum, map_mul, Complex.conj_conj, Finset.sum_mul, Finset.mul_sum, Fin.is_lt, dite_true, Fin.eta]
    rw [Finset.sum_comm]
    refine Finset.sum_congr rfl fun m _ => Finset.sum_congr rfl fun j _ => ?_
    simp only [J]
    ring

/-! ### Concrete cases -/

/-- The coefficients of `x² ∓ 3x + 2`: `b = [-3, 3]` and the scalar `c = 2`. -/
def exCoeffs : List (Tens ℂ) := [⟨[2], fun i => if i = [0] then -3 else 3⟩, ⟨[], fun _ => 2⟩]

/-- Their roots `±1`, `±2`. -/
def exRootsT : List (Tens ℂ) := [⟨[2], fun i => if i = [0] then 1 else -1⟩, ⟨[2], fun i => if i = [0] then 2 else -2⟩]

theorem exValid {i : List ℕ} (h : Valid [2] i) : i = [0] ∨ i = [1] := by
  have := mem_indices.2 h
  have e : indices [2] = [[0], [1]] := by decide
  rw [e] at this
  simpa using this

theorem exAreRoots : ∀ i, Valid [2] i → AreRoots (entries exCoeffs i) (exRootsT.map (·.get i)) := by
  intro i hi
  rcases exValid hi with rfl | rfl
  · exact ⟨rfl, fun x => by simp [entries, exCoeffs, exRootsT, proj, rootProd, monicEval]; ring⟩
  · exact ⟨rfl, fun x => by simp [entries, exCoeffs, exRootsT, proj, rootProd, monicEval]; ring⟩

theorem exNodup : ∀ i, Valid [2] i → (exRootsT.map (·.get i)).Nodup := by
  intro i hi
  rcases exValid hi with rfl | rfl <;> simp [exRootsT]

/-- `C139_roots`, `C139_elementwise`, `C139_raises`, `C139_companion`, `C139_sroots`, `C139_vieta`, `C139_round_trip` on these. -/
example : ∃ eig, EigSpec eig ∧ ∃ rs, rootsT (fun z => z ^ (1 / 2 : ℂ)) (fun z => z ^ (1 / 3 : ℂ)) eig false exCoeffs = .ok rs ∧
    rs.length = 2 ∧ (∀ r ∈ rs, r.shape = [2]) ∧ ∀ i, Valid [2] i → AreRoots (entries exCoeffs i) (rs.map (·.get i)) := by
  obtain ⟨eig, he⟩ := eigSpec_nonempty
  exact ⟨eig, he, C139_roots _ _ eig principal_cpow cbrt_cpow he false exCoeffs (by simp [exCoeffs]) rfl fun _ i hi => by
    rcases exValid hi with rfl | rfl <;> trivial⟩
example (sq cb : ℂ → ℂ) : ∃ eig, EigSpec eig ∧ ∃ rs, rootsT sq cb eig true exCoeffs = .ok rs ∧
    forward sq cb eig (fun _ => .error .valueError) true [.fin (-3), .fin 2] = .ok ((rs.map (·.get [0])).map .fin) := by
  obtain ⟨eig, he⟩ := eigSpec_nonempty
  have h := rootsT_ok sq cb eig true (ts := exCoeffs) (Z := [2]) (by simp [exCoeffs]) rfl
  exact ⟨eig, he, _, h, C139_elementwise sq cb eig he true exCoeffs _ (by simp [exCoeffs]) rfl h _ [0]⟩
example (sq cb : ℂ → ℂ) (eig : (n : ℕ) → Matrix (Fin n) (Fin n) ℂ → List ℂ) :
    rootsT sq cb eig false [⟨[2], fun _ => 1⟩, ⟨[3], fun _ => 1⟩] = .error .runtime :=
  (C139_raises sq cb eig false _).2.2 (by simp) rfl
example := C139_companion (Z := [2]) exCoeffs (by simp [exCoeffs]) rfl
example (sq cb : ℂ → ℂ) (eig : (n : ℕ) → Matrix (Fin n) (Fin n) ℂ → List ℂ) :
    ∃ u, srootsT sq cb eig false (-1) exCoeffs = .ok u ∧ u.shape.reverse = [2, 2] := by
  have h := rootsT_ok sq cb eig false (ts := exCoeffs) (Z := [2]) (by simp [exCoeffs]) rfl
  obtain ⟨u, h1, h2, -⟩ := (C139_sroots sq cb eig false (-1) exCoeffs _ (by simp [exCoeffs]) rfl h).1 (by simp) (by simp)
  exact ⟨u, h1, h2⟩
example := (C139_vieta exRootsT (by simp [exRootsT])).1 [2] rfl
example : vietaT [⟨[2], fun _ => 1⟩, ⟨[3], fun _ => 1⟩] = .error .runtime := (C139_vieta _ (by simp)).2 rfl
example : ∃ eig, EigSpec eig ∧ ∃ rs cs, rootsT (fun z => z ^ (1 / 2 : ℂ)) (fun z => z ^ (1 / 3 : ℂ)) eig false exCoeffs = .ok rs ∧
    vietaT rs = .ok cs ∧ (∀ c ∈ cs, c.shape = [2]) ∧ ∀ i, Valid [2] i → cs.map (·.get i) = entries exCoeffs i := by
  obtain ⟨eig, he⟩ := eigSpec_nonempty
  exact ⟨eig, he, C139_round_trip _ _ eig principal_cpow cbrt_cpow he false exCoeffs (by simp [exCoeffs]) rfl fun _ i hi => by
    rcases exValid hi with rfl | rfl <;> trivial⟩

/-- `C140_raises_iff`, `C140_backward`, `C140_vjp` on these; a batch with one repeated root. -/
example : backwardT [⟨[2], fun i => if i = [0] then 1 else 5⟩, ⟨[2], fun _ => 5⟩] exRootsT = .error .linalg :=
  (C140_raises_iff (Z := [2]) _ _ (by simp) (by simp)).2 ⟨[1], .cons (by omega) .nil, by simp⟩
example := C140_backward (Z := [2]) exRootsT exRootsT (by simp [exRootsT]) (by simp [exRootsT]) exNodup
example := C140_vjp (Z := [2]) exCoeffs exRootsT exRootsT (by simp [exCoeffs]) rfl rfl (by simp [exRootsT]) exAreRoots exNodup

end Verif.Roots.Batch
