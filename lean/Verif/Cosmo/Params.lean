import Verif.Cosmo.Props

/-! # Parameters of cosmologies: temperature, construction, `parameters`, the module wrapper -/

namespace Verif.Cosmo

/-! ### C43 -/

theorem tcmb_set (p : Phys) (o : Obj) (hH : o.H0 ≠ 0) (hN : 1 + o.Neff * p.nu ≠ 0) (v : ℝ) (hv : 0 ≤ v)
    (ho : o.Or0 = (1 + o.Neff * p.nu) * (v ^ 4 * p.arad / criticalDensity0 p o)) : tcmb0 p o = v := by
  unfold tcmb0
  have hc : criticalDensity0 p o ≠ 0 := mul_ne_zero p.crit_pos.ne' (pow_ne_zero 2 hH)
  have ha := p.arad_pos.ne'
  have : o.Or0 / (1 + o.Neff * p.nu) * criticalDensity0 p o / p.arad = v ^ 4 := by
    rw [ho]
    field_simp
  rw [this, ← Real.rpow_natCast v 4, ← Real.rpow_mul hv]
  norm_num

theorem tcmb_get (p : Phys) (o : Obj) (hH : o.H0 ≠ 0) (hN : 1 + o.Neff * p.nu ≠ 0)
    (ho : 0 ≤ o.Or0 / (1 + o.Neff * p.nu)) :
    (1 + o.Neff * p.nu) * (tcmb0 p o ^ 4 * p.arad / criticalDensity0 p o) = o.Or0 := by
  have hc : 0 < criticalDensity0 p o := mul_pos p.crit_pos (pow_pos' hH)
  have ha := p.arad_pos
  have hx : 0 ≤ o.Or0 / (1 + o.Neff * p.nu) * criticalDensity0 p o / p.arad := by positivity
  unfold tcmb0
  rw [← Real.rpow_natCast, ← Real.rpow_mul hx]
  norm_num
  field_simp
where
  pow_pos' {x : ℝ} (h : x ≠ 0) : 0 < x ^ 2 := by positivity

/-- **C43** assigning a temperature and reading it back returns it; it determines `Or0`. -/
theorem C43_roundtrip (p : Phys) (c : Cls) (hc : c.rad = true) (o : Obj) (hH : o.H0 ≠ 0)
    (hN : 1 + o.Neff * p.nu ≠ 0) (v : ℝ) (hv : 0 ≤ v) :
    tcmb0 p (assign p c o .Tcmb0 v) = v ∧
    (assign p c o .Tcmb0 v).Or0 = (1 + o.Neff * p.nu) * (v ^ 4 * p.arad / criticalDensity0 p o) := by
  have h : assign p c o .Tcmb0 v =
      { o with Or0 := (1 + o.Neff * p.nu) * (v ^ 4 * p.arad / criticalDensity0 p o) } := by
    simp [assign, hc]
  rw [h]
  refine ⟨?_, rfl⟩
  exact tcmb_set p { o with Or0 := (1 + o.Neff * p.nu) * (v ^ 4 * p.arad / criticalDensity0 p o) } hH hN v hv rfl

/-- `C43_roundtrip`: `Tcmb0 = 2.7` assigned to an object with `H0 = 70`, `Neff = 3`. -/
example := C43_roundtrip exPhys ⟨.lambda, true, false⟩ rfl { blank 70 with Neff := 3 } (by simp [blank]) (by simp [exPhys]; norm_num) 2.7 (by norm_num)

/-- **C43** conversely, assigning the temperature just read leaves `Or0` unchanged (non-negative radiation
density). -/
theorem C43_roundtrip_get (p : Phys) (c : Cls) (hc : c.rad = true) (o : Obj) (hH : o.H0 ≠ 0)
    (hN : 1 + o.Neff * p.nu ≠ 0) (ho : 0 ≤ o.Or0 / (1 + o.Neff * p.nu)) :
    assign p c o .Tcmb0 (tcmb0 p o) = o := by
  simp [assign, hc, tcmb_get p o hH hN ho]

/-- `C43_roundtrip_get`: `Or0 = 0.1`. -/
example := C43_roundtrip_get exPhys ⟨.lambda, true, false⟩ rfl { blank 70 with Neff := 3, Or0 := 0.1 } (by simp [blank])
  (by simp [exPhys]; norm_num) (by simp [exPhys]; norm_num)

theorem bindArgs_append (c : Cls) (h100 : ℝ) (kw : List (Key × ℝ)) (a b : List Key) (l : List (Key × ℝ))
    (h : bindArgs c h100 kw (a ++ b) = .ok l) :
    ∃ l1 l2, bindArgs c h100 kw a = .ok l1 ∧ bindArgs c h100 kw b = .ok l2 ∧ l = l1 ++ l2 := by
  induction a generalizing l with
  | nil => exact ⟨[], l, rfl, h, rfl⟩
  | cons k a ih =>
    simp only [List.cons_append, bindArgs] at h
    cases ha : argVal c h100 kw k with
    | error e => rw [ha] at h; simp at h
    | ok v =>
      cases hr : bindArgs c h100 kw (a ++ b) with
      | error e => rw [ha, hr] at h; simp at h
      | ok r =>
        rw [ha, hr] at h
        obtain ⟨l1, l2, h1, h2, rfl⟩ := ih r hr
        simp only [Except.ok.injEq] at h
        cases v with
        | none => exact ⟨l1, l2, by simp only [bindArgs, ha, h1], h2, h.symm⟩
        | some x => exact ⟨(k, x) :: l1, l2, by simp only [bindArgs, ha, h1], h2, h.symm⟩

theorem bindArgs_keys (c : Cls) (h100 : ℝ) (kw : List (Key × ℝ)) (ks : List Key) (l : List (Key × ℝ))
    (h : bindArgs c h100 kw ks = .ok l) : ∀ a ∈ l, a.1 ∈ ks := by
  induction ks generalizing l with
  | nil => simp only [bindArgs, Except.ok.injEq] at h; subst h; simp
  | cons k ks ih =>
    simp only [bindArgs] at h
    cases ha : argVal c h100 kw k with
    | error e => rw [ha] at h; simp at h
    | ok v =>
      cases hr : bindArgs c h100 kw ks with
      | error e => rw [ha, hr] at h; simp at h
      | ok r =>
        rw [ha, hr] at h
        simp only [Except.ok.injEq] at h
        subst h
        cases v with
        | none => exact fun a ha => List.mem_cons_of_mem _ (ih r hr a ha)
        | some v =>
          intro a ha
          rcases List.mem_cons.mp ha with rfl | ha
          · simp
          · exact List.mem_cons_of_mem _ (ih r hr a ha)

theorem fold_w_keys (p : Phys) (c : Cls) (l : List (Key × ℝ)) (o : Obj)
    (h : ∀ a ∈ l, a.1 ∈ [Key.w0, .wa, .wp, .wz, .zp]) :
    (setParams p c o l).H0 = o.H0 ∧ (setParams p c o l).Neff = o.Neff ∧ (setParams p c o l).Or0 = o.Or0 := by
  unfold setParams
  induction l generalizing o with
  | nil => exact ⟨rfl, rfl, rfl⟩
  | cons a l ih =>
    rw [List.foldl_cons]
    obtain ⟨h1, h2, h3⟩ := ih (assign p c o a.1 a.2) (fun b hb => h b (List.mem_cons_of_mem _ hb))
    have hk := h a (by simp)
    rw [h1, h2, h3]
    generalize a.1 = k at hk
    cases k <;> simp at hk <;> simp [assign]
    split_ifs <;> exact ⟨rfl, rfl, rfl⟩

/-- **C43** a temperature given to the constructor is the temperature read afterwards, whatever else is passed and
in whatever order (even `Or0`, which it overrides): `H0` and `Neff`, on which the conversion depends, are always
assigned first. -/
theorem C43_construct (p : Phys) (c : Cls) (hc : c.rad = true) (h100 : ℝ) (kw : List (Key × ℝ)) (o : Obj)
    (h : construct p c h100 kw = .ok o) (v : ℝ) (hv : 0 ≤ v) (hkw : kw.lookup .Tcmb0 = some v) (hH : o.H0 ≠ 0)
    (hN : 1 + o.Neff * p.nu ≠ 0) : tcmb0 p o = v := by
  obtain ⟨l, hl, rfl⟩ := construct_eq p c h100 kw o h
  have hp : params c = [Key.H0, .Neff, .Ob0, .Ode0, .Om0, .Or0] ++ (Key.Tcmb0 :: (match c.de with
      | .lambda => []
      | .w => [Key.w0]
      | .w0wa => [.w0, .wa]
      | .wpwa => [.w0, .wa, .wp, .zp]
      | .w0wz => [.w0, .wz])) := by
    simp only [params, hc]
    cases c.de <;> rfl
  rw [hp] at hl
  obtain ⟨l1, l2, h1, h2, rfl⟩ := bindArgs_append c h100 kw _ _ l hl
  simp only [bindArgs, argVal, hkw] at h2
  set post : List Key := (match c.de with
      | .lambda => []
      | .w => [Key.w0]
      | .w0wa => [.w0, .wa]
      | .wpwa => [.w0, .wa, .wp, .zp]
      | .w0wz => [.w0, .wz]) with hpost
  cases hr : bindArgs c h100 kw post with
  | error e => rw [hr] at h2; cases h2
  | ok r =>
    rw [hr] at h2
    simp only [Except.ok.injEq] at h2
    subst h2
    have hw : ∀ a ∈ r, a.1 ∈ [Key.w0, .wa, .wp, .wz, .zp] := by
      intro a ha
      have := bindArgs_keys c h100 kw post r hr a ha
      rw [hpost] at this
      cases hd : c.de <;> simp only [hd] at this <;> simp at this ⊢ <;> tauto
    have he : setParams p c (blank h100) (l1 ++ (Key.Tcmb0, v) :: r) =
        setParams p c (assign p c (setParams p c (blank h100) l1) .Tcmb0 v) r := by
      simp [setParams]
    rw [he] at hH hN ⊢
    obtain ⟨e1, e2, e3⟩ := fold_w_keys p c r (assign p c (setParams p c (blank h100) l1) .Tcmb0 v) hw
    set o1 := setParams p c (blank h100) l1
    have ha1 : (assign p c o1 .Tcmb0 v).H0 = o1.H0 := by simp [assign, hc]
    have ha2 : (assign p c o1 .Tcmb0 v).Neff = o1.Neff := by simp [assign, hc]
    have hrt := (C43_roundtrip p c hc o1 (by rwa [e1, ha1] at hH) (by rwa [e2, ha2] at hN) v hv).1
    refine Eq.trans ?_ hrt
    unfold tcmb0 criticalDensity0
    rw [e1, e2, e3]

/-- A constructed object meeting the hypotheses. -/
example (p : Phys) : ∃ o, construct p ⟨.lambda, true, true⟩ 70 [(.Tcmb0, 2.7), (.Om0, 0.3), (.Neff, 3)] = .ok o ∧
    o.H0 = 70 ∧ o.Neff = 3 := by
  refine ⟨_, rfl, ?_, ?_⟩ <;> simp [assign]

/-! ### C72: construction -/

theorem lookup_perm {kw kw' : List (Key × ℝ)} (h : kw.Perm kw') (hn : (kw.map Prod.fst).Nodup) (k : Key) :
    kw.lookup k = kw'.lookup k := by
  induction h with
  | nil => rfl
  | cons a _ ih =>
    simp only [List.lookup]
    simp only [List.map_cons, List.nodup_cons] at hn
    rw [ih hn.2]
  | swap a b l =>
    obtain ⟨ka, va⟩ := a
    obtain ⟨kb, vb⟩ := b
    simp only [List.map_cons, List.nodup_cons, List.mem_cons, not_or] at hn
    simp only [List.lookup]
    by_cases h1 : k = ka
    · subst h1
      by_cases h2 : k = kb
      · exact absurd h2.symm hn.1.1
      · have e2 : (k == kb) = false := by simp [h2]
        simp [e2]
    · have e1 : (k == ka) = false := by simp [h1]
      simp [e1]
  | trans h1 _ ih1 ih2 =>
    rw [ih1 hn, ih2 ((h1.map Prod.fst).nodup_iff.mp hn)]

theorem bindArgs_congr (c : Cls) (h100 : ℝ) (kw kw' : List (Key × ℝ)) (h : ∀ k, kw.lookup k = kw'.lookup k)
    (ks : List Key) : bindArgs c h100 kw ks = bindArgs c h100 kw' ks := by
  induction ks with
  | nil => rfl
  | cons k ks ih => simp only [bindArgs, argVal, h k, ih]

/-- **C72** the order in which keyword arguments are written is irrelevant. -/
theorem C72_order_irrelevant (p : Phys) (c : Cls) (h100 : ℝ) (kw kw' : List (Key × ℝ)) (hp : kw.Perm kw')
    (hn : (kw.map Prod.fst).Nodup) : construct p c h100 kw = construct p c h100 kw' := by
  unfold construct
  rw [bindArgs_congr c h100 kw kw' (lookup_perm hp hn)]
  have : (kw.any fun a => !(params c).contains a.1) = kw'.any fun a => !(params c).contains a.1 := by
    rw [Bool.eq_iff_iff]
    simp only [List.any_eq_true]
    exact ⟨fun ⟨a, h1, h2⟩ => ⟨a, hp.mem_iff.mp h1, h2⟩, fun ⟨a, h1, h2⟩ => ⟨a, hp.mem_iff.mpr h1, h2⟩⟩
  rw [this]

/-- `C72_order_irrelevant`: three arguments. -/
example := C72_order_irrelevant exPhys ⟨.lambda, true, false⟩ 70 [(.Om0, 0.3), (.Ode0, 0.7), (.Neff, 3)] [(.Neff, 3), (.Om0, 0.3), (.Ode0, 0.7)]
  (List.perm_append_comm (l₁ := [_, _]) (l₂ := [_])) (by decide)

/-- **C72** construction without `Om0` fails, for every class; without `Ode0` it fails for every class but
FlatLambdaCDM(R) (also for the other flat classes). -/
theorem C72_required (p : Phys) (c : Cls) (h100 : ℝ) (kw : List (Key × ℝ))
    (h : kw.lookup .Om0 = none ∨ (¬ FlatLambda c ∧ kw.lookup .Ode0 = none)) : ∀ o, construct p c h100 kw ≠ .ok o := by
  intro o ho
  obtain ⟨l, hl, -⟩ := construct_eq p c h100 kw o ho
  rcases h with h | ⟨hf, h⟩
  · obtain ⟨v, -, hv⟩ := bindArgs_required c h100 kw _ l hl .Om0 (params_om c) .typeError rfl
    simp [h] at hv
  · obtain ⟨v, -, hv⟩ := bindArgs_required c h100 kw _ l hl .Ode0 (params_ode c) .typeError (by
      simp only [default]; rw [if_neg hf])
    simp [h] at hv

/-- `C72_required`: `Ode0` missing in a curved class. -/
example := C72_required exPhys ⟨.w, false, false⟩ 70 [(.Om0, 0.3)] (.inr ⟨by simp [FlatLambda], rfl⟩)

/-- **C72** an unknown keyword is refused. -/
theorem C72_unknown (p : Phys) (c : Cls) (h100 : ℝ) (kw : List (Key × ℝ)) (a : Key × ℝ) (ha : a ∈ kw)
    (hk : a.1 ∉ params c) : construct p c h100 kw = .error .typeError := by
  unfold construct
  rw [if_pos]
  rw [List.any_eq_true]
  exact ⟨a, ha, by simpa using hk⟩

/-- `C72_unknown`: `w0` is no parameter of LambdaCDM. -/
example := C72_unknown exPhys ⟨.lambda, false, false⟩ 70 [(.Om0, 0.3), (.Ode0, 0.7), (.w0, -1)] (.w0, -1) (by simp) (by decide)

theorem bindArgs_ok (c : Cls) (h100 : ℝ) (kw : List (Key × ℝ)) (ks : List Key)
    (h : ∀ k ∈ ks, ∀ e, default c h100 k = .error e → (kw.lookup k).isSome) : ∃ l, bindArgs c h100 kw ks = .ok l := by
  induction ks with
  | nil => exact ⟨[], rfl⟩
  | cons k ks ih =>
    obtain ⟨r, hr⟩ := ih fun k' hk' => h k' (List.mem_cons_of_mem _ hk')
    have : ∃ v, argVal c h100 kw k = .ok v := by
      unfold argVal
      cases hl : kw.lookup k with
      | some v => exact ⟨_, rfl⟩
      | none =>
        cases hd : default c h100 k with
        | ok v => exact ⟨v, by simp [hd]⟩
        | error e => have := h k (by simp) e hd; simp [hl] at this
    obtain ⟨v, hv⟩ := this
    simp only [bindArgs, hv, hr]
    exact ⟨_, rfl⟩

/-- **C72** and otherwise it succeeds: known keywords, `Om0` and (unless FlatLambdaCDM(R)) `Ode0` given. -/
theorem C72_succeeds (p : Phys) (c : Cls) (h100 : ℝ) (kw : List (Key × ℝ)) (h1 : ∀ a ∈ kw, a.1 ∈ params c)
    (h2 : (kw.lookup .Om0).isSome) (h3 : FlatLambda c ∨ (kw.lookup .Ode0).isSome) :
    ∃ o, construct p c h100 kw = .ok o := by
  obtain ⟨l, hl⟩ := bindArgs_ok c h100 kw (params c) (by
    intro k _ e hd
    cases k <;> simp only [default] at hd <;> try cases hd
    · split_ifs at hd with hf
      · rcases h3 with h3 | h3
        · exact absurd h3 hf
        · exact h3
    · exact h2)
  unfold construct
  rw [if_neg, hl]
  · exact ⟨_, rfl⟩
  · intro h
    rw [List.any_eq_true] at h
    obtain ⟨a, ha, hb⟩ := h
    simp [h1 a ha] at hb

/-- `C72_succeeds`: w0waCDMR. -/
example := C72_succeeds exPhys ⟨.w0wa, true, false⟩ 70 [(.Om0, 0.3), (.Ode0, 0.7), (.wa, 0.1), (.Neff, 3)] (by simp [params]) rfl (.inr rfl)

/-! ### Plain attributes -/

/-- The stored attribute behind a parameter (`none`: not stored). -/
def raw (o : Obj) : Key → Option ℝ
  | .H0 => some o.H0
  | .Neff => some o.Neff
  | .Ob0 => some o.Ob0
  | .Ode0 => o.ode
  | .Om0 => some o.Om0
  | .Or0 => some o.Or0
  | .w0 => some o.w0
  | .wa => some o.wa
  | .wz => some o.wz
  | .zp => some o.zp
  | .Tcmb0 | .wp => none

theorem raw_assign (p : Phys) (c : Cls) (o : Obj) (k : Key) (v : ℝ) (hk : isProperty c k = false) (k' : Key) :
    raw (assign p c o k v) k' = if k' = k then some v else raw o k' := by
  cases k <;> simp only [isProperty, Bool.true_eq_false] at hk
  case Ode0 =>
    have : ¬ (c.flat = true ∧ c.de = .lambda) := by
      rintro ⟨h1, h2⟩; simp [h1, h2] at hk
    simp only [assign, if_neg this]
    cases k' <;> simp [raw]
  all_goals (simp only [assign]; cases k' <;> simp [raw])

theorem raw_fold (p : Phys) (c : Cls) (l : List (Key × ℝ)) (hl : ∀ a ∈ l, isProperty c a.1 = false) (o o' : Obj)
    (k : Key) (h : raw o k = raw o' k ∨ k ∈ l.map Prod.fst) : raw (setParams p c o l) k = raw (setParams p c o' l) k := by
  unfold setParams
  induction l generalizing o o' with
  | nil => simpa using h
  | cons a l ih =>
    rw [List.foldl_cons, List.foldl_cons]
    apply ih (fun b hb => hl b (List.mem_cons_of_mem _ hb))
    have ha := hl a (by simp)
    rw [raw_assign p c o _ _ ha, raw_assign p c o' _ _ ha]
    by_cases hk : k = a.1
    · left; simp [hk]
    · rw [if_neg hk, if_neg hk]
      rcases h with h | h
      · exact .inl h
      · simp only [List.map_cons, List.mem_cons] at h
        exact .inr (h.resolve_left hk)

/-- Two objects with the same stored parameters of their class give the same `E²`. -/
theorem e2_congr (c : Cls) (o o' : Obj) (hf : FlatLambda c → o.ode = o'.ode)
    (h : ∀ k ∈ params c, isProperty c k = false → raw o k = raw o' k) (n : ℕ) (z : ℝ) :
    e2func c o n z = e2func c o' n z := by
  have hOm : o.Om0 = o'.Om0 := by simpa [raw] using h .Om0 (params_om c) rfl
  have hode : o.ode = o'.ode := by
    by_cases hfl : FlatLambda c
    · exact hf hfl
    · have := h .Ode0 (params_ode c) (by
        simp only [isProperty, Bool.and_eq_false_iff]
        by_cases h1 : c.flat = true
        · right; simpa using fun h2 => hfl ⟨h1, h2⟩
        · left; simpa using h1)
      simpa [raw] using this
  have hOr : c.rad = true → o.Or0 = o'.Or0 := by
    intro hr
    simpa [raw] using h .Or0 (by simp [params, hr]) rfl
  have hsum : sum0 c o = sum0 c o' := by
    unfold sum0
    split_ifs with hr
    · rw [hOm, hOr hr]
    · exact hOm
  have hscale : ∀ x, deScale c o x = deScale c o' x := by
    intro x
    have hw : c.de ≠ .lambda → o.w0 = o'.w0 := by
      intro hd
      have : Key.w0 ∈ params c := by
        simp only [params, List.mem_append]
        right
        cases hde : c.de <;> simp_all
      simpa [raw] using h .w0 this rfl
    unfold deScale
    cases hde : c.de
    · rfl
    · simp only [hw (by simp [hde])]
    · have : o.wa = o'.wa := by simpa [raw] using h .wa (by simp [params, hde]) rfl
      simp only [hw (by simp [hde]), this]
    · have : o.wa = o'.wa := by simpa [raw] using h .wa (by simp [params, hde]) rfl
      have hz : o.zp = o'.zp := by simpa [raw] using h .zp (by simp [params, hde]) rfl
      simp only [hw (by simp [hde]), this, ap, hz]
    · have : o.wz = o'.wz := by simpa [raw] using h .wz (by simp [params, hde]) rfl
      simp only [hw (by simp [hde]), this]
  have hget : ∀ n, ode0 c o n = ode0 c o' n ∧ ok0 c o n = ok0 c o' n := by
    intro n
    induction n with
    | zero => simp [ode0, ok0]
    | succ n ih => simp only [ode0, ok0, hode, ih.1, ih.2, hsum, and_self]
  unfold e2func e2 e2base
  simp only [(hget n).1, (hget n).2, hOm, hscale]
  cases hr : c.rad
  · simp
  · simp only [hOr hr]

/-! ### C64: the module wrapper -/

/-- **C64** every keyword argument goes to the method iff the method's signature names it, otherwise to the
cosmology, never both: the method receives exactly the arguments named in its signature, and the cosmology is
updated exactly as by assigning the others in order. -/
theorem C64_routing (p : Phys) (c : Cls) (sig : List String) (keyOf : String → Option Key) (o : Obj)
    (kw : List (String × ℝ)) (hn : (kw.map Prod.fst).Nodup) :
    (∀ k v, (k, v) ∈ (forward p c sig keyOf o kw).2 ↔ (k, v) ∈ kw ∧ k ∈ sig) ∧
    (forward p c sig keyOf o kw).1 =
      (kw.filter fun a => !sig.contains a.1).foldl (fun o a => match keyOf a.1 with
        | some k => assign p c o k a.2
        | none => o) o := by
  have hlook : ∀ (l : List (String × ℝ)) (k : String) (v : ℝ), (l.map Prod.fst).Nodup →
      (l.lookup k = some v ↔ (k, v) ∈ l) := by
    intro l k v hl
    induction l with
    | nil => simp
    | cons a l ih =>
      obtain ⟨ka, va⟩ := a
      simp only [List.map_cons, List.nodup_cons] at hl
      by_cases h : k = ka
      · subst h
        simp only [List.lookup, beq_self_eq_true, Option.some.injEq, List.mem_cons, Prod.mk.injEq, true_and]
        constructor
        · exact fun h => .inl h.symm
        · rintro (h | h)
          · exact h.symm
          · exact absurd (List.mem_map.mpr ⟨_, h, rfl⟩) hl.1
      · have e : (k == ka) = false := by simp [h]
        simp only [List.lookup, e, ih hl.2, List.mem_cons, Prod.mk.injEq, h, false_and, false_or]
  constructor
  · intro k v
    simp only [forward, List.mem_filterMap, Option.map_eq_some_iff, Prod.mk.injEq]
    constructor
    · rintro ⟨k', hk', v', hv', rfl, rfl⟩
      exact ⟨(hlook kw k' v' hn).mp hv', hk'⟩
    · rintro ⟨h1, h2⟩
      exact ⟨k, h2, v, (hlook kw k v hn).mpr h1, rfl, rfl⟩
  · simp only [forward, setParams]
    generalize kw.filter (fun a => !sig.contains a.1) = l
    induction l generalizing o with
    | nil => rfl
    | cons a l ih =>
      rw [List.filterMap_cons, List.foldl_cons]
      cases keyOf a.1 with
      | none => simp only [Option.map_none]; exact ih o
      | some k => simp only [Option.map_some, List.foldl_cons]; exact ih _

/-- `C64_routing`: a method with the argument `z`; `Om0` is a parameter. -/
example := C64_routing exPhys ⟨.lambda, false, false⟩ ["z"] (fun s => if s = "Om0" then some .Om0 else none) (blank 70) [("z", 1), ("Om0", 0.3)]
  (by decide)

/-- **C64** a call that passes every independent parameter (and no derived one) forgets the past: from any two
earlier states the cosmology afterwards has the same `E²` function. -/
theorem C64_history_independent (p : Phys) (c : Cls) (o o' : Obj) (hf : FlatLambda c → o.ode = none ∧ o'.ode = none)
    (l : List (Key × ℝ)) (hall : ∀ k ∈ params c, isProperty c k = false → k ∈ l.map Prod.fst)
    (hplain : ∀ a ∈ l, isProperty c a.1 = false) (n : ℕ) (z : ℝ) :
    e2func c (setParams p c o l) n z = e2func c (setParams p c o' l) n z := by
  apply e2_congr
  · intro h
    rw [fold_ode_none p c l o h (hf h).1, fold_ode_none p c l o' h (hf h).2]
  · exact fun k hk hp => raw_fold p c l hplain o o' k (.inr (hall k hk hp))

/-- `C64_history_independent`: all plain parameters of curved LambdaCDM given, two different earlier states. -/
example := C64_history_independent exPhys ⟨.lambda, false, false⟩ (blank 70) { blank 50 with ode := some 0.5, Or0 := 3 } (by simp [FlatLambda])
  [(.H0, 70), (.Ob0, 0.05), (.Ode0, 0.7), (.Om0, 0.3)] (by decide) (by simp [isProperty]) 2 1

/-- **C64** with a derived parameter the order of the arguments matters (unlike in the constructor): setting the
temperature before `H0` converts it with the old `H0`. -/
theorem C64_order_matters (p : Phys) (c : Cls) (hc : c.rad = true) (o : Obj) (hH : o.H0 ≠ 0)
    (hN : 1 + o.Neff * p.nu ≠ 0) :
    tcmb0 p (setParams p c o [(.H0, 16 * o.H0), (.Tcmb0, 1)]) = 1 ∧
    tcmb0 p (setParams p c o [(.Tcmb0, 1), (.H0, 16 * o.H0)]) = 4 := by
  constructor
  · have := (C43_roundtrip p c hc (assign p c o .H0 (16 * o.H0)) (by simpa [assign] using hH) (by simpa [assign] using hN)
      1 zero_le_one).1
    exact this
  · have h1 : setParams p c o [(.Tcmb0, 1), (.H0, 16 * o.H0)] =
        { o with Or0 := (1 + o.Neff * p.nu) * (1 ^ 4 * p.arad / criticalDensity0 p o), H0 := 16 * o.H0 } := by
      simp [setParams, assign, hc]
    rw [h1]
    apply tcmb_set
    · simpa using hH
    · exact hN
    · norm_num
    · have hcr := p.crit_pos.ne'
      simp only [criticalDensity0]
      field_simp
      norm_num

/-- `C64_order_matters`: `H0 = 70`, `Neff = 3`. -/
example := C64_order_matters exPhys ⟨.lambda, true, false⟩ rfl { blank 70 with Neff := 3 } (by simp [blank]) (by simp [exPhys]; norm_num)

/-! ### C73: `parameters` -/

/-- **C73** `parameters` lists every parameter of the class, the derived ones (PropertyParameter) included: the
filter in the code has no effect. -/
theorem C73_keys (p : Phys) (c : Cls) (o : Obj) (n : ℕ) (l : List (Key × ℝ)) (h : parameters p c o n = .ok l) :
    l.map Prod.fst = params c := by
  unfold parameters parameterKeys at h
  generalize params c = ks at h ⊢
  induction ks generalizing l with
  | nil => simp only [readAll, Except.ok.injEq] at h; subst h; rfl
  | cons k ks ih =>
    simp only [readAll] at h
    cases hg : get p c o n k with
    | error e => rw [hg] at h; cases h
    | ok v =>
      cases hr : readAll p c o n ks with
      | error e => rw [hg, hr] at h; cases h
      | ok r =>
        rw [hg, hr] at h
        simp only [Except.ok.injEq] at h
        subst h
        simp [ih r hr]

/-- **C73** for instance `Tcmb0` is listed by every class with radiation. -/
theorem C73_derived_listed (p : Phys) (c : Cls) (hc : c.rad = true) (o : Obj) (n : ℕ) (l : List (Key × ℝ))
    (h : parameters p c o n = .ok l) : isProperty c .Tcmb0 = true ∧ Key.Tcmb0 ∈ l.map Prod.fst := by
  rw [C73_keys p c o n l h]
  exact ⟨rfl, by simp [params, hc]⟩

theorem readAll_ok (p : Phys) (c : Cls) (o : Obj) (hs : Settled c o) (n : ℕ) (ks : List Key) :
    ∃ f : Key → ℝ, (∀ k, get p c o (n + 2) k = .ok (f k)) ∧ readAll p c o (n + 2) ks = .ok (ks.map fun k => (k, f k)) := by
  have : ∀ k, ∃ v, get p c o (n + 2) k = .ok v := by
    intro k
    cases k <;> simp only [get] <;> try exact ⟨_, rfl⟩
    exact ⟨_, ode0_settled c o hs _⟩
  choose f hf using this
  refine ⟨f, hf, ?_⟩
  induction ks with
  | nil => rfl
  | cons k ks ih => simp only [readAll, hf, ih, List.map_cons]

theorem lookup_map (f : Key → ℝ) (ks : List Key) (k : Key) (h : k ∈ ks) :
    (ks.map fun k => (k, f k)).lookup k = some (f k) := by
  induction ks with
  | nil => simp at h
  | cons k' ks ih =>
    by_cases hk : k = k'
    · subst hk; simp [List.lookup]
    · have e : (k == k') = false := by simp [hk]
      simp only [List.map_cons, List.lookup, e]
      exact ih ((List.mem_cons.mp h).resolve_left hk)

theorem bindArgs_map (c : Cls) (h100 : ℝ) (f : Key → ℝ) (all ks : List Key) (h : ∀ k ∈ ks, k ∈ all) :
    bindArgs c h100 (all.map fun k => (k, f k)) ks = .ok (ks.map fun k => (k, f k)) := by
  induction ks with
  | nil => rfl
  | cons k ks ih =>
    simp only [bindArgs, argVal, lookup_map f all k (h k (by simp)), ih fun k' hk' => h k' (List.mem_cons_of_mem _ hk'),
      List.map_cons]

/-- **C73** feeding `parameters` back to the constructor reproduces the cosmology: every parameter reads the same,
and so does `E²` at every redshift (for a physical radiation density). -/
theorem C73_roundtrip (p : Phys) (c : Cls) (o : Obj) (hr : Reachable p c o) (h100 : ℝ) (n : ℕ) (hn : 2 ≤ n)
    (hrad : c.rad = true → o.H0 ≠ 0 ∧ 1 + o.Neff * p.nu ≠ 0 ∧ 0 ≤ o.Or0 / (1 + o.Neff * p.nu)) :
    ∃ l o', parameters p c o n = .ok l ∧ construct p c h100 l = .ok o' ∧
      (∀ k ∈ params c, get p c o' n k = get p c o n k) ∧ ∀ z, e2func c o' n z = e2func c o n z := by
  obtain ⟨m, rfl⟩ := exists_add_two hn
  have hs := reachable_settled p c o hr
  obtain ⟨f, hf, hl⟩ := readAll_ok p c o hs m (params c)
  have hode := reachable_ode p c o hr
  have hcons : construct p c h100 ((params c).map fun k => (k, f k)) =
      .ok (setParams p c (blank h100) ((params c).map fun k => (k, f k))) := by
    unfold construct
    rw [if_neg, bindArgs_map c h100 f _ _ fun _ h => h]
    · rfl
    · intro h
      rw [List.any_eq_true] at h
      obtain ⟨a, ha, hb⟩ := h
      rw [List.mem_map] at ha
      obtain ⟨k, hk, rfl⟩ := ha
      simp [hk] at hb
  refine ⟨_, _, hl, hcons, ?_⟩
  set o' := setParams p c (blank h100) ((params c).map fun k => (k, f k)) with ho'
  -- the values read
  have v1 : f .H0 = o.H0 := by have := hf .H0; simp only [get, Except.ok.injEq] at this; exact this.symm
  have v2 : f .Neff = o.Neff := by have := hf .Neff; simp only [get, Except.ok.injEq] at this; exact this.symm
  have v3 : f .Ob0 = o.Ob0 := by have := hf .Ob0; simp only [get, Except.ok.injEq] at this; exact this.symm
  have v4 : f .Om0 = o.Om0 := by have := hf .Om0; simp only [get, Except.ok.injEq] at this; exact this.symm
  have v5 : f .Or0 = o.Or0 := by have := hf .Or0; simp only [get, Except.ok.injEq] at this; exact this.symm
  have v6 : f .w0 = o.w0 := by have := hf .w0; simp only [get, Except.ok.injEq] at this; exact this.symm
  have v7 : f .wa = o.wa := by have := hf .wa; simp only [get, Except.ok.injEq] at this; exact this.symm
  have v8 : f .wp = o.w0 := by have := hf .wp; simp only [get, Except.ok.injEq] at this; exact this.symm
  have v9 : f .wz = o.wz := by have := hf .wz; simp only [get, Except.ok.injEq] at this; exact this.symm
  have v10 : f .zp = o.zp := by have := hf .zp; simp only [get, Except.ok.injEq] at this; exact this.symm
  have v11 : f .Tcmb0 = tcmb0 p o := by have := hf .Tcmb0; simp only [get, Except.ok.injEq] at this; exact this.symm
  have v12 : f .Ode0 = odeVal c o := by
    have := hf .Ode0; simp only [get, ode0_settled c o hs, Except.ok.injEq] at this; exact this.symm
  have hT : c.rad = true → (1 + o.Neff * p.nu) * (f .Tcmb0 ^ 4 * p.arad / (p.crit * o.H0 ^ 2)) = o.Or0 := by
    intro h
    obtain ⟨a1, a2, a3⟩ := hrad h
    rw [v11]
    exact tcmb_get p o a1 a2 a3
  -- the stored attributes
  have hraw : ∀ k ∈ params c, isProperty c k = false → raw o' k = raw o k := by
    have hodeV : ¬ FlatLambda c → some (odeVal c o) = o.ode := by
      intro h
      obtain ⟨v, hv⟩ := Option.isSome_iff_exists.mp (hode.1 h)
      simp [odeVal, hv]
    rw [ho']
    obtain ⟨de, rad, flat⟩ := c
    cases rad
    · cases de <;> cases flat <;> intro k hk hp <;> simp [params] at hk <;> cases k <;> simp at hk <;>
        simp [isProperty] at hp <;> simp [setParams, params, assign, raw, blank, v1, v2, v3, v4, v5, v6, v7, v8, v9, v10] <;>
        (rw [v12]; exact hodeV (by simp [FlatLambda]))
    · have hT' := hT rfl
      cases de <;> cases flat <;> intro k hk hp <;> simp [params] at hk <;> cases k <;> simp at hk <;>
        simp [isProperty] at hp <;>
        simp [setParams, params, assign, raw, blank, v1, v2, v3, v4, v5, v6, v7, v8, v9, v10, criticalDensity0] <;>
        first
          | exact hT'
          | (rw [v12]; exact hodeV (by simp [FlatLambda]))
  have hnone : FlatLambda c → o'.ode = o.ode := by
    intro h
    rw [hode.2 h, ho']
    exact fold_ode_none p c _ _ h rfl
  have he2 : ∀ z, e2func c o' (m + 2) z = e2func c o (m + 2) z := fun z => e2_congr c o' o hnone hraw _ z
  refine ⟨?_, he2⟩
  intro k hk
  by_cases hp : isProperty c k = false
  · have := hraw k hk hp
    have hs' : Settled c o' := by
      rcases hs with h | h
      · exact .inl h
      · by_cases hfl : FlatLambda c
        · exact .inl hfl.1
        · exact .inr (by
            have h2 : o'.ode = o.ode := hraw .Ode0 (params_ode c) (by
              simp only [isProperty, Bool.and_eq_false_iff]
              by_cases h1 : c.flat = true
              · right; simpa using fun h2 => hfl ⟨h1, h2⟩
              · left; simpa using h1)
            rw [h2]; exact h)
    cases k <;> simp only [raw, Option.some.injEq] at this <;> simp only [get, this]
    · -- Ode0
      rw [ode0_settled c o' hs', ode0_settled c o hs]
      have hsome := hode.1 (by
        rintro ⟨h1, h2⟩
        simp [isProperty, h1, h2] at hp)
      obtain ⟨v, hv⟩ := Option.isSome_iff_exists.mp hsome
      simp [odeVal, this, hv]
    · simp [isProperty] at hp
    · simp [isProperty] at hp
  · cases k <;> simp [isProperty] at hp
    · -- Ode0 of FlatLambda
      have hfl : FlatLambda c := hp
      simp only [get]
      rw [ode0_flat_none c o' hfl.1 (by rw [hnone hfl]; exact hode.2 hfl), ode0_flat_none c o hfl.1 (hode.2 hfl)]
      have h1 : o'.Om0 = o.Om0 := by simpa [raw] using hraw .Om0 (params_om c) rfl
      unfold sum0
      cases hrd : c.rad
      · simp [h1]
      · have h2 : o'.Or0 = o.Or0 := by simpa [raw] using hraw .Or0 (by simp [params, hrd]) rfl
        simp [h1, h2]
    · -- Tcmb0
      have hrd : c.rad = true := by
        by_contra hne
        have : c.rad = false := by simpa using hne
        obtain ⟨de, rad, flat⟩ := c
        subst this
        cases de <;> simp [params] at hk
      have h1 : o'.H0 = o.H0 := by simpa [raw] using hraw .H0 (by simp [params]) rfl
      have h2 : o'.Or0 = o.Or0 := by simpa [raw] using hraw .Or0 (by simp [params, hrd]) rfl
      have h3 : o'.Neff = o.Neff := by simpa [raw] using hraw .Neff (by simp [params, hrd]) rfl
      simp only [get, tcmb0, criticalDensity0, h1, h2, h3]
    · -- wp
      have hde : c.de = .wpwa := by
        obtain ⟨de, rad, flat⟩ := c
        cases de <;> cases rad <;> simp [params] at hk ⊢
      have h1 : o'.w0 = o.w0 := by simpa [raw] using hraw .w0 (by simp [params, hde]) rfl
      simp only [get, h1]

/-- `C73_roundtrip`, and with it `C73_keys` and `C73_derived_listed`: a curved w0waCDMR object with `H0 = 70`, `Neff = 3`, `Or0 = 0.1`. -/
example : ∃ (o : Obj) (l : List (Key × ℝ)) (o' : Obj), o.Neff = 3 ∧ parameters exPhys ⟨.w0wa, true, false⟩ o 2 = .ok l ∧
    construct exPhys ⟨.w0wa, true, false⟩ 100 l = .ok o' ∧ l.map Prod.fst = params ⟨.w0wa, true, false⟩ ∧ Key.Tcmb0 ∈ l.map Prod.fst := by
  obtain ⟨o₀, h⟩ := reachable_with exPhys ⟨.w0wa, true, false⟩ [(.H0, 70), (.Neff, 3), (.Or0, 0.1)]
  set o := setParams exPhys ⟨.w0wa, true, false⟩ o₀ [(.H0, 70), (.Neff, 3), (.Or0, 0.1)] with ho
  have h1 : o.H0 = 70 := by simp [ho, setParams, assign]
  have h2 : o.Neff = 3 := by simp [ho, setParams, assign]
  have h3 : o.Or0 = 0.1 := by simp [ho, setParams, assign]
  obtain ⟨l, o', hl, ho', -⟩ := C73_roundtrip exPhys _ o h 100 2 le_rfl fun _ => by
    rw [h1, h2, h3]; simp [exPhys]; norm_num
  exact ⟨o, l, o', h2, hl, ho', C73_keys _ _ _ _ _ hl, (C73_derived_listed _ _ rfl _ _ _ hl).2⟩

end Verif.Cosmo
