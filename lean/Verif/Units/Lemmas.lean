import Verif.Units.Model
import Mathlib.Tactic.Ring
import Mathlib.Tactic.Linarith
import Mathlib.Data.Rat.Lemmas
import Mathlib.Data.List.Dedup
import Mathlib.Data.List.Perm.Lattice

/-! Helper lemmas for the unit model. -/

namespace Verif.Units

/-! ### limit_denominator -/

theorem limDenTo_of_le {M : ℕ} {x : ℚ} (h : x.den ≤ M) : limDenTo M x = x := by
  simp [limDenTo, h]

theorem limDen_of_le {x : ℚ} (h : x.den ≤ maxDen) : limDen x = x := limDenTo_of_le h

@[simp] theorem limDen_zero : limDen 0 = 0 := limDen_of_le (by simp [maxDen])

theorem limLoop_bound (M : ℕ) : ∀ (fuel : ℕ) (p0 : ℤ) (q0 : ℕ) (p1 : ℤ) (q1 : ℕ) (n : ℤ) (d : ℕ),
    q0 ≤ M → q1 ≤ M →
    (limLoop M fuel p0 q0 p1 q1 n d).2.1 ≤ M ∧ (limLoop M fuel p0 q0 p1 q1 n d).2.2.2 ≤ M := by
  intro fuel
  induction fuel with
  | zero => intro p0 q0 p1 q1 n d h0 h1; simp [limLoop, h0, h1]
  | succ f ih =>
    intro p0 q0 p1 q1 n d h0 h1
    simp only [limLoop]
    split
    · simp [h0, h1]
    · rename_i h
      exact ih _ _ _ _ _ _ h1 (by omega)

theorem den_div_le (a : ℤ) (b : ℕ) (M : ℕ) (hM : 1 ≤ M) (hb : b ≤ M) : ((a : ℚ) / (b : ℚ)).den ≤ M := by
  rcases Nat.eq_zero_or_pos b with h | h
  · subst h; simpa using hM
  · have : ((a : ℚ) / (b : ℚ)) = Rat.divInt a b := by
      rw [Rat.divInt_eq_div]; push_cast; rfl
    rw [this]
    have hd := Rat.den_dvd a (b : ℤ)
    have : (Rat.divInt a (b : ℤ)).den ∣ b := by exact_mod_cast hd
    exact le_trans (Nat.le_of_dvd h this) hb

theorem limDenTo_den_le (M : ℕ) (hM : 1 ≤ M) (x : ℚ) : (limDenTo M x).den ≤ M := by
  unfold limDenTo
  split
  · assumption
  · have hb := limLoop_bound M (x.den + 1) 0 1 1 0 x.num x.den hM (Nat.zero_le _)
    generalize limLoop M (x.den + 1) 0 1 1 0 x.num x.den = r at hb ⊢
    obtain ⟨p0, q0, p1, q1⟩ := r
    obtain ⟨hb0, hb1⟩ := hb
    simp only at hb0 hb1 ⊢
    have hk : q0 + (M - q0) / q1 * q1 ≤ M := by
      have := Nat.div_mul_le_self (M - q0) q1
      omega
    split
    · exact den_div_le p1 q1 M hM hb1
    · have := den_div_le (p0 + ((M - q0) / q1 : ℕ) * p1) (q0 + (M - q0) / q1 * q1) M hM hk
      push_cast at this ⊢
      exact this

theorem limDen_den_le (x : ℚ) : (limDen x).den ≤ maxDen := limDenTo_den_le _ (by simp [maxDen]) x

/-! ### dictionaries -/

theorem lookup_eq_none_iff' (d : Dict) (k : Dim) : d.lookup k = none ↔ k ∉ keys d := by
  induction d with
  | nil => simp [keys]
  | cons x xs ih =>
    obtain ⟨a, b⟩ := x
    rw [List.lookup_cons]
    by_cases h : k = a
    · subst h; simp [keys]
    · have : (k == a) = false := by simpa using h
      simp only [this, Bool.false_eq_true, ↓reduceIte]
      rw [ih]; simp [keys, h]

theorem lookup_eq_some_iff_mem {d : Dict} (hd : (keys d).Nodup) (k : Dim) (v : ℚ) :
    d.lookup k = some v ↔ (k, v) ∈ d := by
  induction d with
  | nil => simp
  | cons x xs ih =>
    obtain ⟨a, b⟩ := x
    simp only [keys, List.map_cons, List.nodup_cons] at hd
    rw [List.lookup_cons]
    by_cases h : k = a
    · subst h
      simp only [beq_self_eq_true, ↓reduceIte, Option.some.injEq, List.mem_cons, Prod.mk.injEq,
        true_and]
      constructor
      · intro h; exact Or.inl h.symm
      · rintro (h | h)
        · exact h.symm
        · exact absurd (List.mem_map_of_mem (f := Prod.fst) h) hd.1
    · have hb : (k == a) = false := by simpa using h
      simp only [hb, Bool.false_eq_true, ↓reduceIte, List.mem_cons, Prod.mk.injEq, h, false_and,
        false_or]
      exact ih hd.2

theorem dset_keys_nodup {d : Dict} (hd : (keys d).Nodup) (k v) : (keys (dset d k v)).Nodup := by
  unfold dset
  split
  · have : keys (d.map (fun kv => if kv.1 = k then (k, v) else kv)) = keys d := by
      simp only [keys, List.map_map]
      apply List.map_congr_left
      intro a _
      by_cases h : a.1 = k <;> simp [h]
    rw [this]; exact hd
  · rename_i h
    simp only [keys, List.map_append, List.map_cons, List.map_nil]
    rw [List.nodup_append]
    refine ⟨hd, by simp, ?_⟩
    intro a ha b hb
    simp only [List.mem_singleton] at hb
    subst hb
    intro hab; subst hab; exact h ha

theorem foldl_dset_nodup (items : List (Dim × ℚ)) : ∀ d : Dict, (keys d).Nodup →
    (keys (items.foldl (fun d kv => dset d kv.1 kv.2) d)).Nodup := by
  induction items with
  | nil => intro d h; simpa
  | cons x xs ih => intro d h; exact ih _ (dset_keys_nodup h _ _)

theorem dictOf_nodup (items : List (Dim × ℚ)) : (keys (dictOf items)).Nodup :=
  foldl_dset_nodup items [] (by simp [keys])

theorem foldl_dset_of_nodup (items : List (Dim × ℚ)) : ∀ d : Dict, (keys (d ++ items)).Nodup →
    items.foldl (fun d kv => dset d kv.1 kv.2) d = d ++ items := by
  induction items with
  | nil => intro d _; simp
  | cons x xs ih =>
    intro d h
    simp only [List.foldl_cons]
    have hx : x.1 ∉ d.map Prod.fst := by
      simp only [keys, List.map_append, List.map_cons, List.nodup_append, List.mem_cons] at h
      intro hm
      exact h.2.2 _ hm _ (Or.inl rfl) rfl
    have : dset d x.1 x.2 = d ++ [x] := by simp [dset, hx]
    rw [this, ih]
    · simp
    · simpa using h

theorem dictOf_of_nodup {items : List (Dim × ℚ)} (h : (keys items).Nodup) : dictOf items = items := by
  have := foldl_dset_of_nodup items [] (by simpa using h)
  simpa [dictOf] using this

/-- Normal form of an exponent dictionary. -/
structure Normal (d : Dict) : Prop where
  nodup : (keys d).Nodup
  nonzero : ∀ kv ∈ d, kv.2 ≠ 0
  den_le : ∀ kv ∈ d, kv.2.den ≤ maxDen

theorem mkDims_normal (items : List (Dim × ℚ)) : Normal (mkDims items) := by
  unfold mkDims
  refine ⟨?_, ?_, ?_⟩
  · have h := dictOf_nodup items
    have hs : (keys (((dictOf items).map (fun kv => (kv.1, limDen kv.2))).filter
        (fun kv => kv.2 ≠ 0))).Sublist (keys (dictOf items)) := by
      have h1 := (List.filter_sublist (p := fun kv : Dim × ℚ => decide (kv.2 ≠ 0))
        (l := (dictOf items).map (fun kv => (kv.1, limDen kv.2)))).map Prod.fst
      have h2 : ((dictOf items).map (fun kv => (kv.1, limDen kv.2))).map Prod.fst
          = keys (dictOf items) := by simp [keys, Function.comp_def]
      rw [h2] at h1
      exact h1
    exact h.sublist hs
  · intro kv h
    simpa using (List.mem_filter.mp h).2
  · intro kv h
    obtain ⟨a, _, rfl⟩ := List.mem_map.mp (List.mem_filter.mp h).1
    exact limDen_den_le _

theorem dget_of_mem {d : Dict} (hd : (keys d).Nodup) {k v} (h : (k, v) ∈ d) : dget d k = v := by
  simp [dget, (lookup_eq_some_iff_mem hd k v).mpr h]

theorem dget_of_not_mem {d : Dict} {k} (h : k ∉ keys d) : dget d k = 0 := by
  simp [dget, (lookup_eq_none_iff' d k).mpr h]

theorem mem_of_dget_ne {d : Dict} (hd : (keys d).Nodup) {k} (h : dget d k ≠ 0) : (k, dget d k) ∈ d := by
  rw [← lookup_eq_some_iff_mem hd]
  unfold dget at h ⊢
  cases hl : d.lookup k with
  | none => simp [hl] at h
  | some v => simp

theorem dget_mkDims {items : List (Dim × ℚ)} (h : (keys items).Nodup) (k : Dim) :
    dget (mkDims items) k = limDen (dget items k) := by
  have hn := mkDims_normal items
  by_cases hk : limDen (dget items k) = 0
  · rw [hk]
    by_contra hne
    have hm := mem_of_dget_ne hn.nodup hne
    generalize dget (mkDims items) k = w at hm hne
    unfold mkDims at hm
    rw [dictOf_of_nodup h] at hm
    obtain ⟨hm, -⟩ := List.mem_filter.mp hm
    obtain ⟨⟨a, b⟩, hab, heq⟩ := List.mem_map.mp hm
    simp only [Prod.mk.injEq] at heq
    obtain ⟨rfl, heq⟩ := heq
    rw [dget_of_mem h hab] at hk
    rw [hk] at heq
    exact hne heq.symm
  · apply dget_of_mem hn.nodup
    unfold mkDims
    rw [dictOf_of_nodup h, List.mem_filter]
    refine ⟨List.mem_map.mpr ⟨(k, dget items k), mem_of_dget_ne h ?_, rfl⟩, by simpa using hk⟩
    intro h0; exact hk (by rw [h0]; simp)

theorem dictEq_iff_of_nodup {a b : Dict} (ha : (keys a).Nodup) (hb : (keys b).Nodup) :
    dictEq a b = true ↔ a.Perm b := by
  have hna : a.Nodup := List.Nodup.of_map _ ha
  have hnb : b.Nodup := List.Nodup.of_map _ hb
  simp only [dictEq, Bool.and_eq_true, beq_iff_eq, List.all_eq_true]
  constructor
  · rintro ⟨hl, hm⟩
    have hsub : a ⊆ b := fun x hx => (lookup_eq_some_iff_mem hb _ _).mp (hm x hx)
    exact (hna.subperm hsub).perm_of_length_le hl.ge
  · intro hp
    exact ⟨hp.length_eq, fun x hx => (lookup_eq_some_iff_mem hb _ _).mpr (hp.subset hx)⟩

theorem dictEq_iff {a b : Dict} (ha : Normal a) (hb : Normal b) :
    dictEq a b = true ↔ ∀ k, dget a k = dget b k := by
  rw [dictEq_iff_of_nodup ha.nodup hb.nodup]
  constructor
  · intro hp k
    by_cases h : k ∈ keys a
    · obtain ⟨⟨k', v⟩, hm, rfl⟩ := List.mem_map.mp h
      rw [dget_of_mem ha.nodup hm, dget_of_mem hb.nodup (hp.subset hm)]
    · have h' : k ∉ keys b := fun h' => h ((hp.map Prod.fst).symm.subset h')
      rw [dget_of_not_mem h, dget_of_not_mem h']
  · intro h
    apply (List.perm_ext_iff_of_nodup (List.Nodup.of_map _ ha.nodup) (List.Nodup.of_map _ hb.nodup)).mpr
    rintro ⟨k, v⟩
    constructor
    · intro hm
      have hv := dget_of_mem ha.nodup hm
      have h0 := ha.nonzero _ hm
      have := mem_of_dget_ne hb.nodup (k := k) (by rw [← h k, hv]; exact h0)
      rwa [← h k, hv] at this
    · intro hm
      have hv := dget_of_mem hb.nodup hm
      have h0 := hb.nonzero _ hm
      have := mem_of_dget_ne ha.nodup (k := k) (by rw [h k, hv]; exact h0)
      rwa [h k, hv] at this

theorem dget_den_le {d : Dict} (h : Normal d) (k : Dim) : (dget d k).den ≤ maxDen := by
  by_cases hk : dget d k = 0
  · rw [hk]; simp [maxDen]
  · exact h.den_le _ (mem_of_dget_ne h.nodup hk)

/-! ### exponents of the results of operations -/

theorem lookup_map_self (l : List Dim) (f : Dim → ℚ) (k : Dim) :
    (l.map (fun k => (k, f k))).lookup k = if k ∈ l then some (f k) else none := by
  induction l with
  | nil => simp
  | cons a l ih =>
    simp only [List.map_cons, List.lookup_cons]
    by_cases h : k = a
    · subst h; simp
    · have : (k == a) = false := by simpa using h
      simp [this, h, ih]

theorem dget_dmul (σ : SetOrder) (a b : Dict) (k : Dim) :
    dget (dmul σ a b) k = limDen (dget a k + dget b k) := by
  unfold dmul operateOther
  have hp := σ.perm (keys a ++ keys b).dedup
  have hnd : (σ.ord (keys a ++ keys b).dedup).Nodup := hp.nodup_iff.mpr (List.nodup_dedup _)
  rw [dget_mkDims]
  · congr 1
    unfold dget
    rw [lookup_map_self]
    split
    · rfl
    · rename_i h
      have h' : k ∉ keys a ++ keys b := fun hm => h (hp.mem_iff.mpr (List.mem_dedup.mpr hm))
      rw [List.mem_append, not_or] at h'
      rw [(lookup_eq_none_iff' a k).mpr h'.1, (lookup_eq_none_iff' b k).mpr h'.2]
      simp
  · simpa [keys, Function.comp_def] using hnd

theorem lookup_map_val (d : Dict) (f : ℚ → ℚ) (k : Dim) :
    (d.map (fun kv => (kv.1, f kv.2))).lookup k = (d.lookup k).map f := by
  induction d with
  | nil => simp
  | cons x xs ih =>
    obtain ⟨a, b⟩ := x
    simp only [List.map_cons, List.lookup_cons]
    by_cases h : k = a
    · simp [h]
    · have : (k == a) = false := by simpa using h
      simp [this, ih]

theorem dget_operateSelf {a : Dict} (ha : (keys a).Nodup) (f : ℚ → ℚ) (hf : f 0 = 0) (k : Dim) :
    dget (operateSelf a f) k = limDen (f (dget a k)) := by
  unfold operateSelf
  rw [dget_mkDims]
  · congr 1
    unfold dget
    rw [lookup_map_val]
    cases a.lookup k <;> simp [hf]
  · simpa [keys, Function.comp_def] using ha

theorem dget_dinv {a : Dict} (ha : Normal a) (k : Dim) : dget (dinv a) k = -dget a k := by
  unfold dinv
  rw [dget_operateSelf ha.nodup _ (by simp), limDen_of_le]
  rw [Rat.den_neg_eq_den]; exact dget_den_le ha k

theorem dget_dpow {a : Dict} (ha : Normal a) (p : ℚ) (k : Dim) :
    dget (dpow a p) k = limDen (dget a k * p) := by
  unfold dpow
  rw [dget_operateSelf ha.nodup _ (by simp)]

theorem den_mul_int_le (x : ℚ) (n : ℤ) : (x * n).den ≤ x.den := by
  have h := Rat.mul_den_dvd x (n : ℚ)
  simp only [Rat.den_intCast, mul_one] at h
  exact Nat.le_of_dvd x.den_pos h

theorem dget_dpow_int {a : Dict} (ha : Normal a) (n : ℤ) (k : Dim) :
    dget (dpow a n) k = dget a k * n := by
  rw [dget_dpow ha, limDen_of_le]
  exact le_trans (den_mul_int_le _ _) (dget_den_le ha k)

theorem dget_mkDims_self {a : Dict} (ha : Normal a) (k : Dim) : dget (mkDims a) k = dget a k := by
  rw [dget_mkDims ha.nodup, limDen_of_le (dget_den_le ha k)]

theorem dget_nil (k : Dim) : dget [] k = 0 := by simp [dget]

/-- `limLoop` never runs out of fuel and never divides by zero when started by `limDenTo` on a
fraction with denominator above `M`: the loop always leaves through the `break`. -/
theorem limLoop_fuel (M D : ℕ) (hMD : M < D) : ∀ (f f' : ℕ) (p0 : ℤ) (q0 : ℕ) (p1 : ℤ) (q1 : ℕ)
    (n d : ℕ), d < f → d < f' → q1 ≤ M → Nat.Coprime n d → q1 * n + q0 * d = D →
    d ≠ 0 ∧ limLoop M f p0 q0 p1 q1 n d = limLoop M f' p0 q0 p1 q1 n d := by
  intro f
  induction f with
  | zero => intro f' p0 q0 p1 q1 n d h; omega
  | succ f ih =>
    intro f' p0 q0 p1 q1 n d hf hf' hq hc hD
    have hd : d ≠ 0 := by
      rintro rfl
      simp only [Nat.coprime_zero_right] at hc
      subst hc; omega
    refine ⟨hd, ?_⟩
    obtain ⟨g, rfl⟩ : ∃ g, f' = g + 1 := ⟨f' - 1, by omega⟩
    simp only [limLoop]
    split
    · rfl
    · rename_i hle
      have e1 : ((n : ℤ) - (n : ℤ) / (d : ℤ) * d).toNat = n % d := by
        have : (n : ℤ) - (n : ℤ) / (d : ℤ) * d = ((n % d : ℕ) : ℤ) := by
          push_cast; rw [Int.emod_def, mul_comm]
        rw [this, Int.toNat_natCast]
      have e2 : ((n : ℤ) / (d : ℤ)).toNat = n / d := by
        have : (n : ℤ) / (d : ℤ) = ((n / d : ℕ) : ℤ) := by push_cast; rfl
        rw [this, Int.toNat_natCast]
      rw [e2] at hle
      rw [e1, e2]
      have hlt := Nat.mod_lt n (Nat.pos_of_ne_zero hd)
      refine (ih g _ _ _ _ _ _ (by omega) (by omega) (by omega) ?_ ?_).2
      · rw [Nat.coprime_comm, Nat.Coprime, ← Nat.gcd_rec, Nat.gcd_comm]; exact hc
      · have := Nat.div_add_mod n d
        calc (q0 + n / d * q1) * d + q1 * (n % d) = q1 * (d * (n / d) + n % d) + q0 * d := by ring
          _ = D := by rw [this, hD]

theorem limLoop_start (M : ℕ) (hM : 1 ≤ M) (x : ℚ) (hx : M < x.den) (f : ℕ) (hf : x.den < f) :
    limLoop M f 0 1 1 0 x.num x.den = limLoop M (x.den + 1) 0 1 1 0 x.num x.den := by
  obtain ⟨g, rfl⟩ : ∃ g, f = g + 1 := ⟨f - 1, by omega⟩
  simp only [limLoop, mul_zero, add_zero]
  rw [if_neg (by omega), if_neg (by omega)]
  have hd : (0 : ℤ) < (x.den : ℤ) := by exact_mod_cast x.den_pos
  have e : x.num - x.num / (x.den : ℤ) * x.den = x.num % x.den := by
    rw [Int.emod_def, mul_comm]
  rw [e]
  have hlt := Int.emod_lt_of_pos x.num hd
  have hnn := Int.emod_nonneg x.num hd.ne'
  refine (limLoop_fuel M x.den hx _ _ _ _ _ _ _ _ (by omega) (by omega) hM ?_ (by simp)).2
  have hc := x.reduced
  have h1 : Int.gcd (x.den : ℤ) (x.num % x.den) = 1 := by
    rw [Int.gcd_comm, Int.gcd_emod, Int.gcd_comm, Int.gcd]
    simpa [Nat.Coprime, Nat.gcd_comm] using hc
  rw [Nat.Coprime]
  obtain ⟨w, hw⟩ := Int.eq_ofNat_of_zero_le hnn
  rw [hw] at h1 ⊢
  simpa [Int.gcd] using h1

end Verif.Units
