import Verif.Roots.BatchModel
import Verif.Roots.Props

/-! # Lemmas about the tensor model of `phytorch/roots/__init__.py` -/

namespace Verif.Roots.Batch

open Verif.Tensor

variable {Z : Shape}

theorem op_ok {f : ℂ → ℂ → ℂ} {s t : Tens ℂ} (h : bc s.shape t.shape = some Z) :
    ∃ u, op f s t = .ok u ∧ u.shape = Z ∧ ∀ i, Z.length ≤ i.length →
      u.get (proj Z i) = f (s.get (proj s.shape i)) (t.get (proj t.shape i)) := by
  refine ⟨⟨Z, fun i => f (s.get (proj s.shape i)) (t.get (proj t.shape i))⟩, by simp [op, map2, h], rfl, fun i hi => ?_⟩
  have := bc_le h
  simp only
  rw [proj_proj this.1 hi, proj_proj this.2 hi]

theorem fold_ok {f : ℂ → ℂ → ℂ} : ∀ (us : List (Tens ℂ)) (t : Tens ℂ) {Z : Shape}, bcAll ((t :: us).map (·.shape)) = some Z →
    ∃ v, fold f t us = .ok v ∧ v.shape = Z ∧ ∀ i, Z.length ≤ i.length →
      v.get (proj Z i) = (entries us i).foldl f (t.get (proj t.shape i))
  | [], t, Z, h => by
    have hZ : t.shape = Z := by
      rw [bcAll_eq_some] at h
      exact Le.antisymm (h.1 _ (by simp)) (h.2 _ (by simp [Le.refl]))
    exact ⟨t, rfl, hZ, fun i _ => by simp [entries, hZ]⟩
  | u :: us, t, Z, h => by
    rw [bcAll_eq_some] at h
    obtain ⟨Y, hY, -⟩ := bc_of_le (h.1 t.shape (by simp)) (h.1 u.shape (by simp))
    have hlub := bc_eq_some.1 hY
    obtain ⟨v, hv, hs, hg⟩ := op_ok (f := f) hY
    have hY' : bcAll ((v :: us).map (·.shape)) = some Z := by
      rw [bcAll_eq_some]
      refine ⟨fun s hs' => ?_, fun W hW => h.2 W fun s hs' => ?_⟩
      · simp only [List.map_cons, List.mem_cons, hs] at hs'
        rcases hs' with rfl | hs'
        · exact hlub.2 _ (h.1 _ (by simp)) (h.1 _ (by simp))
        · exact h.1 _ (by simp [hs'])
      · simp only [List.map_cons, List.mem_cons] at hs'
        have hvW : Le Y W := hW Y (by simp [hs])
        rcases hs' with rfl | rfl | hs'
        · exact hlub.1.1.trans hvW
        · exact hlub.1.2.trans hvW
        · exact hW _ (by simp [hs'])
    obtain ⟨w, hw, hws, hwg⟩ := fold_ok (f := f) us v hY'
    refine ⟨w, by simp [fold, hv, hw], hws, fun i hi => ?_⟩
    have hYZ : Le Y Z := by rw [← hs]; exact (bcAll_le hY') _ (by simp)
    rw [hwg i hi, hs, hg i (hYZ.length.trans hi)]
    simp [entries]

theorem productT_ok {l : List (Tens ℂ)} (hl : l ≠ []) {Z : Shape} (h : bcAll (l.map (·.shape)) = some Z) :
    ∃ v, productT l = .ok v ∧ v.shape = Z ∧ ∀ i, Z.length ≤ i.length → v.get (proj Z i) = (entries l i).prod := by
  match l, hl with
  | t :: ts, _ =>
    obtain ⟨v, hv, hs, hg⟩ := fold_ok (f := (· * ·)) ts t h
    refine ⟨v, hv, hs, fun i hi => ?_⟩
    rw [hg i hi]
    simp only [entries, List.map_cons, List.prod_cons]
    have h1 := product_ok (t.get (proj t.shape i) :: ts.map fun u => u.get (proj u.shape i)) (by simp)
    simpa [product] using h1

theorem combos_map {α β : Type} (f : α → β) : ∀ (p : ℕ) (l : List α), combos p (l.map f) = (combos p l).map (List.map f)
  | 0, l => by cases l <;> rfl
  | p + 1, [] => rfl
  | p + 1, x :: l => by
    simp only [List.map_cons, combos, combos_map f p l, combos_map f (p + 1) l, List.map_append, List.map_map]
    rfl

theorem mem_combos {α : Type} : ∀ (p : ℕ) (l : List α), 1 ≤ p → p ≤ l.length → ∀ x ∈ l, ∃ c ∈ combos p l, x ∈ c
  | p + 1, y :: l, _, hp, x, hx => by
    rcases List.mem_cons.1 hx with rfl | hx
    · have : combos p l ≠ [] := by
        intro h
        have h1 := (combos_perm p l).length_eq
        rw [h, List.length_sublistsLen] at h1
        have := Nat.choose_pos (n := l.length) (k := p) (by simpa using hp)
        simp at h1; omega
      obtain ⟨c, hc⟩ := List.exists_mem_of_ne_nil _ this
      exact ⟨x :: c, by simp [combos, hc], by simp⟩
    · by_cases hpl : p + 1 ≤ l.length
      · obtain ⟨c, hc, hxc⟩ := mem_combos (p + 1) l (by omega) hpl x hx
        exact ⟨c, by simp [combos, hc], hxc⟩
      · have hl : l.length = p := by simp at hp; omega
        refine ⟨y :: l, ?_, by simp [hx]⟩
        have := combos_all (y :: l)
        rw [List.length_cons, hl] at this
        rw [this]; simp

theorem mem_of_combos {α : Type} {p : ℕ} {l c : List α} (h : c ∈ combos p l) {x : α} (hx : x ∈ c) : x ∈ l :=
  (List.mem_sublistsLen.1 ((combos_perm p l).mem_iff.1 h)).1.subset hx

theorem mapE_ok' {α β : Type} {f : α → Except Err β} : ∀ (l : List α) {P : α → β → Prop}, (∀ x ∈ l, ∃ y, f x = .ok y ∧ P x y) →
    ∃ ys, mapE f l = .ok ys ∧ List.Forall₂ P l ys
  | [], P, _ => ⟨[], rfl, .nil⟩
  | x :: l, P, h => by
    obtain ⟨y, hy, hP⟩ := h x (by simp)
    obtain ⟨ys, hys, hF⟩ := mapE_ok' l fun x hx => h x (by simp [hx])
    exact ⟨y :: ys, by simp [mapE, hy, hys], .cons hP hF⟩

theorem bcAll_sub {l l' : List Shape} {Z : Shape} (h : bcAll l = some Z) (hs : ∀ s ∈ l', s ∈ l) : ∃ Y, bcAll l' = some Y ∧ Le Y Z :=
  bcAll_of_le fun s hs' => bcAll_le h s (hs s hs')

theorem esymT_ok {ts : List (Tens ℂ)} {p : ℕ} (hp : 1 ≤ p) (hpl : p ≤ ts.length) (h : bcAll (ts.map (·.shape)) = some Z) :
    ∃ v, esymT p ts = .ok v ∧ v.shape = Z ∧ ∀ i, Z.length ≤ i.length →
      v.get (proj Z i) = (entries ts i : Multiset ℂ).esymm p := by
  have hc : ∀ c ∈ combos p ts, ∃ v, productT c = .ok v ∧ (bcAll (c.map (·.shape)) = some v.shape ∧ Le v.shape Z ∧
      ∀ i, Z.length ≤ i.length → v.get (proj v.shape i) = (entries c i).prod) := by
    intro c hc
    have hne : c ≠ [] := by
      rintro rfl
      have := combos_length _ hc
      simp at this; omega
    obtain ⟨Y, hY, hYZ⟩ := bcAll_sub (l' := c.map (·.shape)) h fun s hs => by
      obtain ⟨t, ht, rfl⟩ := List.mem_map.1 hs
      exact List.mem_map_of_mem (mem_of_combos hc ht)
    obtain ⟨v, hv, hs, hg⟩ := productT_ok hne hY
    exact ⟨v, hv, by rw [hs]; exact hY, by rw [hs]; exact hYZ, fun i hi => by rw [hs, hg i (hYZ.length.trans hi)]⟩
  obtain ⟨us, hus, hF⟩ := mapE_ok' _ hc
  have hZ : bcAll (((⟨[], fun _ => 0⟩ : Tens ℂ) :: us).map (·.shape)) = some Z := by
    rw [bcAll_eq_some]
    refine ⟨fun s hs => ?_, fun W hW => (bcAll_eq_some.1 h).2 W fun s hs => ?_⟩
    · simp only [List.map_cons, List.mem_cons, List.mem_map] at hs
      rcases hs with rfl | ⟨u, hu, rfl⟩
      · trivial
      · obtain ⟨k, hk, rfl⟩ := List.getElem_of_mem hu
        have h1 := (List.forall₂_iff_get.1 hF).2 k (by rw [hF.length_eq]; exact hk) hk
        exact h1.2.1
    · obtain ⟨t, ht, rfl⟩ := List.mem_map.1 hs
      obtain ⟨c, hcm, htc⟩ := mem_combos p ts hp hpl t ht
      obtain ⟨k, hk, rfl⟩ := List.getElem_of_mem hcm
      have hk' : k < us.length := by rw [← hF.length_eq]; exact hk
      have h1 := (List.forall₂_iff_get.1 hF).2 k hk hk'
      have h2 := bcAll_le h1.1 t.shape (List.mem_map_of_mem (by simpa using htc))
      exact h2.trans (hW _ (List.mem_cons_of_mem _ (List.mem_map_of_mem (List.getElem_mem hk'))))
  obtain ⟨v, hv, hs, hg⟩ := fold_ok (f := (· + ·)) us _ hZ
  refine ⟨v, by simp [esymT, hus, hv], hs, fun i hi => ?_⟩
  rw [hg i hi]
  have he : entries us i = (combos p (entries ts i)).map List.prod := by
    unfold entries
    rw [combos_map, List.map_map]
    refine List.ext_get (by simp [hF.length_eq]) fun k h1 h2 => ?_
    have h3 := (List.forall₂_iff_get.1 hF).2 k (by simpa using h2) (by simpa using h1)
    simpa [entries] using h3.2.2 i hi
  rw [he, foldl_add_sum]
  have h4 := esymm_ok p hp (entries ts i)
  unfold elementarySymmetric at h4
  rw [mapE_ok product List.prod _ (fun c hc => product_ok c (by
    rintro rfl
    have := combos_length _ hc
    simp at this; omega))] at h4
  simp only [Except.ok.injEq] at h4
  rw [foldl_add_sum] at h4
  exact h4

theorem vietaT_ok {rts : List (Tens ℂ)} (h : bcAll (rts.map (·.shape)) = some Z) :
    ∃ cs, vietaT rts = .ok cs ∧ cs.length = rts.length ∧ (∀ c ∈ cs, c.shape = Z) ∧
      ∀ i, Z.length ≤ i.length → vieta (entries rts i) = .ok (entries cs i) := by
  have hk : ∀ k ∈ (List.range rts.length).map (· + 1), ∃ y, (match esymT k rts with
      | .error e => Except.error e
      | .ok e => .ok (e.map fun v => (-1) ^ k * v)) = .ok y ∧ (y.shape = Z ∧ ∀ i, Z.length ≤ i.length →
        y.get (proj y.shape i) = (-1) ^ k * (entries rts i : Multiset ℂ).esymm k) := by
    intro k hk
    simp only [List.mem_map, List.mem_range] at hk
    obtain ⟨k, hk, rfl⟩ := hk
    obtain ⟨v, hv, hs, hg⟩ := esymT_ok (p := k + 1) (by omega) (by omega) h
    refine ⟨v.map fun v => (-1) ^ (k + 1) * v, by rw [hv], hs, fun i hi => ?_⟩
    simp only [Tens.map]
    rw [hs, hg i hi]
  obtain ⟨cs, hcs, hF⟩ := mapE_ok' _ hk
  have hl : cs.length = rts.length := by rw [← hF.length_eq]; simp
  refine ⟨cs, hcs, hl, fun c hc => ?_, fun i hi => ?_⟩
  · obtain ⟨k, hk', rfl⟩ := List.getElem_of_mem hc
    exact ((List.forall₂_iff_get.1 hF).2 k (by rw [hF.length_eq]; exact hk') hk').1
  · rw [vieta_ok]
    congr 1
    refine List.ext_get (by simp [entries, hl]) fun k h1 h2 => ?_
    have h3 := ((List.forall₂_iff_get.1 hF).2 k (by simpa [entries] using h1) (by simpa [entries] using h2)).2 i hi
    simpa [entries] using h3.symm

end Verif.Roots.Batch
