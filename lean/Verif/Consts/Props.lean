import Verif.Consts.Lemmas

/-! # Property theorems C10, C11 (constants) -/

namespace Verif.Consts

open Verif

/-! ## C10 lookup -/

/-- Specification of attribute access on `phytorch.constants`: pre-existing module globals first, then
the releases, `default` (the 2018 release), `astro`, then names of the 2018 release, then names of the
astro module; anything else is an `AttributeError` (`none`). `i18` and `i14` identify the single
instance of each release. -/
def spec (G0 : PyDict String Obj) (i18 i14 : ℕ) (n : String) : Option Obj :=
  match G0.get? n with
  | some o => some o
  | none =>
    if n = "codata2018" ∨ n = "default" then some (.codata i18 "codata2018")
    else if n = "codata2014" then some (.codata i14 "codata2014")
    else if n = "astro" then some .astroModule
    else if n ∈ codataAll then some (.const i18 "codata2018" (canon n))
    else astroObj n

/-- The module right after import: `G0` are its ordinary globals (imports, helper functions), which do
not include the dynamically resolved module names. -/
def init (G0 : PyDict String Obj) : World := ⟨G0, 0⟩

theorem astroObj_default : astroObj "default" = none ∧ astroObj "codata2018" = none ∧
    astroObj "codata2014" = none ∧ astroObj "astro" = none := by decide +kernel

def Compat (G0 : PyDict String Obj) (w : World) (i18 i14 : ℕ) : Prop :=
  ∀ n o, w.globals.get? n = some o → spec G0 i18 i14 n = some o

structure Good (G0 : PyDict String Obj) (w : World) : Prop where
  ex : ∃ i18 i14, Compat G0 w i18 i14 ∧
    (w.globals.get? "codata2018" = none → ∀ j, Compat G0 w j i14) ∧
    (w.globals.get? "codata2014" = none → ∀ i j, Compat G0 w i i14 → Compat G0 w i j)
  keep : ∀ n o, G0.get? n = some o → w.globals.get? n = some o

/-- The names a module may not define statically for dynamic lookup to work. -/
def reserved : List String := ["codata2018", "codata2014", "default", "astro"]

variable {G0 : PyDict String Obj}

theorem compat_set {w : World} {i18 i14 : ℕ} (h : Compat G0 w i18 i14) (n : String) (o : Obj) (nx : ℕ)
    (hs : spec G0 i18 i14 n = some o) : Compat G0 ⟨w.globals.set n o, nx⟩ i18 i14 := by
  intro m p hm
  simp only [PyDict.get?_set] at hm
  split at hm
  · rename_i e; subst e; simp only [Option.some.injEq] at hm; subst hm; exact hs
  · exact h m p hm

theorem spec_of_G0 {i j : ℕ} {n o} (h : G0.get? n = some o) : spec G0 i j n = some o := by
  simp [spec, h]

theorem spec_default {i j} (h : G0.get? "default" = none) : spec G0 i j "default" = some (.codata i "codata2018") := by
  simp [spec, h]
theorem spec_18 {i j} (h : G0.get? "codata2018" = none) : spec G0 i j "codata2018" = some (.codata i "codata2018") := by
  simp [spec, h]
theorem spec_14 {i j} (h : G0.get? "codata2014" = none) : spec G0 i j "codata2014" = some (.codata j "codata2014") := by
  simp [spec, h]
theorem spec_astro {i j} (h : G0.get? "astro" = none) : spec G0 i j "astro" = some .astroModule := by
  simp [spec, h]

/-- Which instance identifiers a state is still compatible with: fixed once created, free before. -/
def Ids (w : World) (i18 i14 : ℕ) : Prop :=
  (∀ o, w.globals.get? "codata2018" = some o → o = .codata i18 "codata2018") ∧
  (∀ o, w.globals.get? "codata2014" = some o → o = .codata i14 "codata2014")

/-- Invariant: for all identifiers that agree with the releases already created, every global agrees
with the specification; and such identifiers exist. -/
structure Inv (G0 : PyDict String Obj) (w : World) : Prop where
  ids : ∃ i18 i14, Ids w i18 i14
  compat : ∀ i18 i14, Ids w i18 i14 → Compat G0 w i18 i14
  keep : ∀ n o, G0.get? n = some o → w.globals.get? n = some o

/-- One state extends another: globals only grow. -/
def Ext (w w' : World) : Prop := ∀ n o, w.globals.get? n = some o → w'.globals.get? n = some o

theorem Ext.ids {w w' : World} (h : Ext w w') {i j} (hi : Ids w' i j) : Ids w i j :=
  ⟨fun o ho => hi.1 o (h _ _ ho), fun o ho => hi.2 o (h _ _ ho)⟩

theorem Ext.trans {a b c : World} (h : Ext a b) (h' : Ext b c) : Ext a c :=
  fun n o ho => h' n o (h n o ho)

theorem ext_set {w : World} {n o nx} (h : ∀ p, w.globals.get? n = some p → p = o) :
    Ext w ⟨w.globals.set n o, nx⟩ := by
  intro m p hp
  simp only [PyDict.get?_set]
  split
  · rename_i e; subst e; rw [h p hp]
  · exact hp

/-- Setting a name to what the specification demands preserves the invariant. -/
theorem inv_set {w : World} (hI : Inv G0 w) {n : String} {o : Obj} {nx : ℕ}
    (hext : Ext w ⟨w.globals.set n o, nx⟩)
    (hex : ∃ i j, Ids ⟨w.globals.set n o, nx⟩ i j)
    (hs : ∀ i j, Ids ⟨w.globals.set n o, nx⟩ i j → spec G0 i j n = some o) :
    Inv G0 ⟨w.globals.set n o, nx⟩ :=
  ⟨hex, fun i j hij => compat_set (hI.compat i j (hext.ids hij)) n o nx (hs i j hij),
    fun m p hm => hext m p (hI.keep m p hm)⟩

theorem ids_set_other {w : World} {n o nx i j} (h : Ids w i j) (h1 : n ≠ "codata2018") (h2 : n ≠ "codata2014") :
    Ids ⟨w.globals.set n o, nx⟩ i j := by
  constructor
  · intro p hp; simp only [PyDict.get?_set, h1, ↓reduceIte] at hp; exact h.1 p hp
  · intro p hp; simp only [PyDict.get?_set, h2, ↓reduceIte] at hp; exact h.2 p hp

theorem set_same {w : World} (hg : ∀ n ∈ reserved, G0.get? n = none) (hI : Inv G0 w) {n o}
    (h1 : n ≠ "codata2018") (h2 : n ≠ "codata2014")
    (hs : ∀ i j, Ids w i j → spec G0 i j n = some o) (nx : ℕ) :
    Inv G0 ⟨w.globals.set n o, nx⟩ ∧ Ext w ⟨w.globals.set n o, nx⟩ := by
  obtain ⟨i, j, hij⟩ := hI.ids
  have hext : Ext w ⟨w.globals.set n o, nx⟩ := ext_set (fun p hp => by
    have a := hI.compat i j hij n p hp
    rw [hs i j hij] at a
    exact (Option.some.inj a).symm)
  exact ⟨inv_set hI hext ⟨i, j, ids_set_other hij h1 h2⟩ (fun i j h => hs i j (hext.ids h)), hext⟩

theorem getRelease_spec {w : World} (hg : ∀ n ∈ reserved, G0.get? n = none) (hI : Inv G0 w) (rel : String)
    (hr : rel ∈ releases) :
    Inv G0 (getRelease w rel).1 ∧ Ext w (getRelease w rel).1 ∧
    (getRelease w rel).1.globals.get? rel = some (getRelease w rel).2 ∧
    ∀ i j, Ids (getRelease w rel).1 i j → spec G0 i j rel = some (getRelease w rel).2 := by
  have h18 : G0.get? "codata2018" = none := hg _ (by simp [reserved])
  have h14 : G0.get? "codata2014" = none := hg _ (by simp [reserved])
  unfold getRelease
  cases hc : w.globals.get? rel with
  | some o =>
    exact ⟨hI, fun _ _ h => h, hc, fun i j hij => hI.compat i j hij rel o hc⟩
  | none =>
    simp only
    have hext : Ext w ⟨w.globals.set rel (.codata w.next rel), w.next + 1⟩ :=
      ext_set (fun p hp => by rw [hc] at hp; cases hp)
    have hget : (w.globals.set rel (.codata w.next rel)).get? rel = some (.codata w.next rel) := by
      simp [PyDict.get?_set]
    have hs : ∀ i j, Ids ⟨w.globals.set rel (.codata w.next rel), w.next + 1⟩ i j →
        spec G0 i j rel = some (.codata w.next rel) := by
      intro i j hij
      simp only [releases, List.mem_cons, List.not_mem_nil, or_false] at hr
      rcases hr with rfl | rfl
      · rw [spec_14 h14, ← hij.2 _ hget]
      · rw [spec_18 h18, ← hij.1 _ hget]
    obtain ⟨i, j, hij⟩ := hI.ids
    refine ⟨inv_set hI hext ?_ hs, hext, hget, hs⟩
    simp only [releases, List.mem_cons, List.not_mem_nil, or_false] at hr
    rcases hr with rfl | rfl
    · refine ⟨i, w.next, fun o ho => ?_, fun o ho => ?_⟩
      · simp [PyDict.get?_set] at ho; exact hij.1 o ho
      · simp [PyDict.get?_set] at ho; exact ho.symm
    · refine ⟨w.next, j, fun o ho => ?_, fun o ho => ?_⟩
      · simp [PyDict.get?_set] at ho; exact ho.symm
      · simp [PyDict.get?_set] at ho; exact hij.2 o ho

theorem lookup_spec {w : World} (hg : ∀ n ∈ reserved, G0.get? n = none) (hI : Inv G0 w) (n : String) :
    Inv G0 (lookup w n).1 ∧ Ext w (lookup w n).1 ∧
    ∀ i j, Ids (lookup w n).1 i j → (lookup w n).2 = spec G0 i j n := by
  have h18 : G0.get? "codata2018" = none := hg _ (by simp [reserved])
  have h14 : G0.get? "codata2014" = none := hg _ (by simp [reserved])
  have hdf : G0.get? "default" = none := hg _ (by simp [reserved])
  have has : G0.get? "astro" = none := hg _ (by simp [reserved])
  unfold lookup
  cases hc : w.globals.get? n with
  | some o => exact ⟨hI, fun _ _ h => h, fun i j hij => (hI.compat i j hij n o hc).symm⟩
  | none =>
    simp only
    have hG : G0.get? n = none := by
      cases hg0 : G0.get? n with
      | none => rfl
      | some o => rw [hI.keep n o hg0] at hc; cases hc
    unfold moduleGetattr
    by_cases hr : n ∈ releases
    · rw [if_pos hr]
      obtain ⟨a, b, c, d⟩ := getRelease_spec hg hI n hr
      generalize getRelease w n = g at a b c d ⊢
      obtain ⟨w', o⟩ := g
      simp only at a b c d ⊢
      have hext : Ext w' ⟨w'.globals.set n o, w'.next⟩ := ext_set (fun p hp => by
        rw [c] at hp; exact (Option.some.inj hp).symm)
      have hids : ∀ i j, Ids w' i j → Ids ⟨w'.globals.set n o, w'.next⟩ i j := by
        intro i j hij
        constructor
        · intro p hp
          simp only [PyDict.get?_set] at hp
          split at hp
          · rename_i e; subst e; simp only [Option.some.injEq] at hp; subst hp; exact hij.1 _ c
          · exact hij.1 _ hp
        · intro p hp
          simp only [PyDict.get?_set] at hp
          split at hp
          · rename_i e; subst e; simp only [Option.some.injEq] at hp; subst hp; exact hij.2 _ c
          · exact hij.2 _ hp
      obtain ⟨i, j, hij⟩ := a.ids
      exact ⟨inv_set a hext ⟨i, j, hids i j hij⟩ (fun i j h => d i j (hext.ids h)), b.trans hext,
        fun i j h => (d i j (hext.ids h)).symm⟩
    · rw [if_neg hr]
      simp only [releases, List.mem_cons, List.not_mem_nil, or_false, not_or] at hr
      obtain ⟨a, b, c, d⟩ := getRelease_spec hg hI "codata2018" (by simp [releases])
      by_cases hn : n = "default"
      · subst hn
        rw [if_pos rfl]
        generalize getRelease w "codata2018" = g at a b c d ⊢
        obtain ⟨w', o⟩ := g
        simp only at a b c d ⊢
        have hs : ∀ i j, Ids w' i j → spec G0 i j "default" = some o := by
          intro i j hij; have := d i j hij; rw [spec_18 h18] at this; rw [spec_default hdf, this]
        obtain ⟨e, f⟩ := set_same hg a (n := "default") (by decide) (by decide) hs w'.next
        exact ⟨e, b.trans f, fun i j h => (hs i j (f.ids h)).symm⟩
      · rw [if_neg hn]
        by_cases hna : n = "astro"
        · subst hna
          rw [if_pos rfl]
          simp only [importAstro]
          obtain ⟨e, f⟩ := set_same hg hI (n := "astro") (by decide) (by decide)
            (fun i j _ => spec_astro (i := i) (j := j) has) w.next
          obtain ⟨e', f'⟩ := set_same hg e (n := "astro") (by decide) (by decide)
            (fun i j _ => spec_astro (i := i) (j := j) has) w.next
          exact ⟨e', f.trans f', fun i j _ => (spec_astro has).symm⟩
        · rw [if_neg hna]
          have hspec : ∀ i j, spec G0 i j n = if n ∈ codataAll then
              some (.const i "codata2018" (canon n)) else astroObj n := by
            intro i j; simp [spec, hG, hr.1, hr.2, hn, hna]
          generalize getRelease w "codata2018" = g at a b c d ⊢
          obtain ⟨w', o⟩ := g
          simp only at a b c d ⊢
          have ho : ∀ i j, Ids w' i j → o = .codata i "codata2018" := by
            intro i j hij
            have := d i j hij; rw [spec_18 h18] at this; exact (Option.some.inj this).symm
          obtain ⟨i0, j0, hij0⟩ := a.ids
          have ho0 := ho i0 j0 hij0
          by_cases hm : n ∈ codataAll
          · have hat : attrOf o n = some (.const i0 "codata2018" (canon n)) := by
              rw [ho0]; simp [attrOf, hm]
            rw [hat]
            simp only
            have hs : ∀ i j, Ids w' i j → spec G0 i j n = some (.const i0 "codata2018" (canon n)) := by
              intro i j hij
              have h1 := ho i j hij
              rw [ho0] at h1
              simp only [Obj.codata.injEq, and_true] at h1
              rw [hspec, if_pos hm, h1]
            obtain ⟨e, f⟩ := set_same hg a hr.2 hr.1 hs w'.next
            exact ⟨e, b.trans f, fun i j h => (hs i j (f.ids h)).symm⟩
          · have hat : attrOf o n = none := by rw [ho0]; simp [attrOf, hm]
            rw [hat]
            simp only [importAstro]
            obtain ⟨e, f⟩ := set_same hg a (n := "astro") (by decide) (by decide)
              (fun i j _ => spec_astro (i := i) (j := j) has) w'.next
            have hat2 : attrOf .astroModule n = astroObj n := rfl
            rw [hat2]
            cases hao : astroObj n with
            | none => exact ⟨e, b.trans f, fun i j _ => by rw [hspec, if_neg hm, hao]⟩
            | some q =>
              simp only
              have hs : ∀ i j, Ids ⟨w'.globals.set "astro" .astroModule, w'.next⟩ i j →
                  spec G0 i j n = some q := by
                intro i j _; rw [hspec, if_neg hm, hao]
              obtain ⟨e2, f2⟩ := set_same hg e hr.2 hr.1 hs w'.next
              exact ⟨e2, b.trans (f.trans f2), fun i j h => (hs i j (f2.ids h)).symm⟩

theorem runLookups_spec (hg : ∀ n ∈ reserved, G0.get? n = none) (ns : List String) : ∀ w : World, Inv G0 w →
    Inv G0 (runLookups w ns).1 ∧ Ext w (runLookups w ns).1 ∧
    ∀ i j, Ids (runLookups w ns).1 i j → (runLookups w ns).2 = ns.map (spec G0 i j) := by
  induction ns with
  | nil => intro w hI; exact ⟨hI, fun _ _ h => h, fun _ _ _ => rfl⟩
  | cons n ns ih =>
    intro w hI
    obtain ⟨a, b, c⟩ := lookup_spec hg hI n
    obtain ⟨d, e, f⟩ := ih (lookup w n).1 a
    refine ⟨d, b.trans e, fun i j hij => ?_⟩
    have h1 := f i j hij
    have h2 := c i j (e.ids hij)
    simp only [List.map_cons]
    rw [← h1, ← h2]
    rfl

/-- **C10.** For every history of attribute accesses on `phytorch.constants` there is one instance of
each CODATA release such that every access in the history returned exactly what the specification
says for its name alone — the same Python object every time, whatever was accessed before (including
failed accesses); unknown names always give `AttributeError`. -/
theorem C10_history_independent (G0 : PyDict String Obj) (hg : ∀ n ∈ reserved, G0.get? n = none)
    (history : List String) :
    ∃ i18 i14, (runLookups (init G0) history).2 = history.map (spec G0 i18 i14) := by
  have hI : Inv G0 (init G0) := by
    have h18 : G0.get? "codata2018" = none := hg _ (by simp [reserved])
    have h14 : G0.get? "codata2014" = none := hg _ (by simp [reserved])
    refine ⟨⟨0, 0, fun o ho => ?_, fun o ho => ?_⟩, fun i j _ n o h => spec_of_G0 h, fun n o h => h⟩
    · have : G0.get? "codata2018" = some o := ho
      rw [h18] at this; cases this
    · have : G0.get? "codata2014" = some o := ho
      rw [h14] at this; cases this
  obtain ⟨a, -, c⟩ := runLookups_spec hg history (init G0) hI
  obtain ⟨i, j, hij⟩ := a.ids
  exact ⟨i, j, c i j hij⟩

/-- Non-vacuity, and what it means for the user: `constants.default is constants.codata2018`,
`constants.hbar is constants.ħ`, an unknown name raises, whatever the order. -/
example : (runLookups (init [("sys", .preset "sys")])
    ["hbar", "nonsense", "solarMass", "codata2014", "default", "codata2018", "ħ", "M_sun", "sys"]).2 =
    [some (.const 0 "codata2018" "ħ"), none, some (.astroConst "M_☉"), some (.codata 1 "codata2014"),
     some (.codata 0 "codata2018"), some (.codata 0 "codata2018"), some (.const 0 "codata2018" "ħ"),
     some (.astroConst "M_☉"), some (.preset "sys")] := by decide +kernel

/-! ## C11 derived constants -/

/-- Exponents of L, T, M, I, Θ (all others zero). -/
def dimSI (l t m i θ : ℤ) (k : String) : ℤ :=
  if k = "L" then l else if k = "T" then t else if k = "M" then m else if k = "I" then i
  else if k = "Θ" then θ else 0

/-- The computation succeeds with the given value (in SI base units) and dimensions. -/
def Is (c : Except Err Units.Unit) (x : ℝ) (ex : String → ℤ) : Prop :=
  ∃ u, c = .ok u ∧ u.value = x ∧ ∀ k, u.exp k = ex k

theorem isOf {c : Except Err Units.Unit} {u x a y b} (h : c = .ok u) (hr : RepU u x a) (hx : x = y)
    (hab : ∀ k, a k = b k) : Is c y b :=
  ⟨u, h, by rw [hr.val, hx], fun k => by rw [hr.exp, hab]⟩

/-- Positive primary values. -/
structure Vals.Pos (v : Vals) : Prop where
  c : 0 < v.c
  h : 0 < v.h
  k : 0 < v.k
  e : 0 < v.e
  α : 0 < v.α
  m_p : 0 < v.m_p
  m_e : 0 < v.m_e

variable {σ : SetOrder} {v : Vals}

theorem rep_newton : ∃ u, newton σ = .ok u ∧ RepU u 1 (dimSI 1 (-2) 1 0 0) := by
  obtain ⟨s2, e1, r1⟩ := (rep_base "T").pow one_ne_zero 2
  obtain ⟨n, e2, r2⟩ := ((rep_base "M").mul (σ := σ) (rep_base "L")).div (σ := σ) r1 (by norm_num)
  refine ⟨n, ?_, r2.wf, by rw [r2.val]; norm_num, fun k => ?_⟩
  · unfold newton
    rw [show (2 : ℚ) = ((2 : ℕ) : ℚ) by norm_num, e1]
    exact e2
  · rw [r2.exp]; congr 1
    unfold dimSI
    split_ifs <;> simp_all

theorem rep_joule : ∃ u, joule σ = .ok u ∧ RepU u 1 (dimSI 2 (-2) 1 0 0) := by
  obtain ⟨n, e, r⟩ := rep_newton (σ := σ)
  refine ⟨_, by unfold joule; rw [e]; rfl, ?_⟩
  have h := r.mul (σ := σ) (rep_base "L")
  refine ⟨h.wf, by rw [h.val]; norm_num, fun k => ?_⟩
  rw [h.exp]; congr 1; unfold dimSI; split_ifs <;> simp_all

theorem rep_c : ∃ u, c_ σ v = .ok u ∧ RepU u v.c (dimSI 1 (-1) 0 0 0) := by
  obtain ⟨n, e, r⟩ := (rep_base "L").div (σ := σ) (rep_base "T") one_ne_zero
  refine ⟨_, by unfold c_; rw [e]; rfl, ?_⟩
  have h := r.basic v.c
  refine ⟨h.wf, by rw [h.val]; norm_num, fun k => ?_⟩
  rw [h.exp]; congr 1; unfold dimSI; split_ifs <;> simp_all

theorem rep_h : ∃ u, h_ σ v = .ok u ∧ RepU u v.h (dimSI 2 (-1) 1 0 0) := by
  obtain ⟨n, e, r⟩ := rep_joule (σ := σ)
  refine ⟨_, by unfold h_; rw [e]; rfl, ?_⟩
  have h := (r.mul (σ := σ) (rep_base "T")).basic v.h
  refine ⟨h.wf, by rw [h.val]; norm_num, fun k => ?_⟩
  rw [h.exp]; congr 1; unfold dimSI; split_ifs <;> simp_all

theorem rep_k : ∃ u, k_ σ v = .ok u ∧ RepU u v.k (dimSI 2 (-2) 1 0 (-1)) := by
  obtain ⟨n, e, r⟩ := rep_joule (σ := σ)
  obtain ⟨q, e2, r2⟩ := r.div (σ := σ) (rep_base "Θ") one_ne_zero
  refine ⟨_, by unfold k_; rw [e]; change (do let a ← n.div σ (baseUnit "Θ"); _) = _; rw [e2]; rfl, ?_⟩
  have h := r2.basic v.k
  refine ⟨h.wf, by rw [h.val]; norm_num, fun k => ?_⟩
  rw [h.exp]; congr 1; unfold dimSI; split_ifs <;> simp_all

theorem rep_e : ∃ u, e_ σ v = .ok u ∧ RepU u v.e (dimSI 0 1 0 1 0) := by
  refine ⟨_, by unfold e_ coulomb; rfl, ?_⟩
  have h := ((rep_base "I").mul (σ := σ) (rep_base "T")).basic v.e
  refine ⟨h.wf, by rw [h.val]; norm_num, fun k => ?_⟩
  rw [h.exp]; congr 1; unfold dimSI; split_ifs <;> simp_all

theorem rep_α : RepU (α_ v) v.α (fun _ => 0) := by
  have h := rep_one.basic v.α
  exact ⟨h.wf, by rw [α_, h.val]; norm_num, h.exp⟩

theorem rep_m_p : RepU (m_p_ v) v.m_p (dimSI 0 0 1 0 0) := by
  have h := (rep_base "M").basic v.m_p
  refine ⟨h.wf, by rw [m_p_, h.val]; norm_num, fun k => ?_⟩
  rw [m_p_, h.exp]; congr 1; unfold dimSI; split_ifs <;> simp_all

theorem rep_m_e : RepU (m_e_ v) v.m_e (dimSI 0 0 1 0 0) := by
  have h := (rep_base "M").basic v.m_e
  refine ⟨h.wf, by rw [m_e_, h.val]; norm_num, fun k => ?_⟩
  rw [m_e_, h.exp]; congr 1; unfold dimSI; split_ifs <;> simp_all

theorem rep_hbar : ∃ u, hbar σ v = .ok u ∧ RepU u (v.h / (2 * Real.pi)) (dimSI 2 (-1) 1 0 0) := by
  obtain ⟨h, e, r⟩ := rep_h (σ := σ) (v := v)
  obtain ⟨q, e2, r2⟩ := r.divReal (2 * Real.pi) (by positivity)
  exact ⟨_, by unfold hbar; rw [e]; change (do let a ← h.divReal (2 * Real.pi); _) = _; rw [e2]; rfl, r2.constant⟩

/-- **C11a.** `ħ = h/2π`, in J s. -/
theorem C11_hbar (σ : SetOrder) (v : Vals) : Is (hbar σ v) (v.h / (2 * Real.pi)) (dimSI 2 (-1) 1 0 0) := by
  obtain ⟨u, e, r⟩ := rep_hbar (σ := σ) (v := v)
  exact isOf e r rfl (fun _ => rfl)

theorem rep_mu0 (hv : v.Pos) : ∃ u, mu0 σ v = .ok u ∧
    RepU u (2 * v.α * v.h / (v.e ^ 2 * v.c)) (dimSI 1 (-2) 1 (-2) 0) := by
  obtain ⟨ħ, e1, r1⟩ := rep_hbar (σ := σ) (v := v)
  obtain ⟨e, e2, r2⟩ := rep_e (σ := σ) (v := v)
  obtain ⟨c, e3, r3⟩ := rep_c (σ := σ) (v := v)
  obtain ⟨esq, e4, r4⟩ := r2.pow hv.e.ne' 2
  obtain ⟨y, e5, r5⟩ := (((rep_α (v := v)).mulReal (4 * Real.pi)).mul (σ := σ) r1).div (σ := σ) r4 (pow_ne_zero _ hv.e.ne')
  obtain ⟨z, e6, r6⟩ := r5.div (σ := σ) r3 hv.c.ne'
  have r7 := r6.constant
  refine ⟨_, ?_, r7.wf, ?_, fun k => ?_⟩
  · unfold mu0
    rw [show (2 : ℚ) = ((2 : ℕ) : ℚ) by norm_num]
    simp only [e1, e2, e3, e4, e5, e6, bind, Except.bind, pure, Except.pure]
  · rw [r7.val]
    have := hv.e.ne'; have := hv.c.ne'; have := Real.pi_pos.ne'
    field_simp; ring
  · rw [r7.exp]; congr 1; unfold dimSI; split_ifs <;> simp

/-- **C11b.** `µ₀ = 2αh/(e²c)` in kg m s⁻² A⁻². -/
theorem C11_mu0 (σ : SetOrder) (v : Vals) (hv : v.Pos) :
    Is (mu0 σ v) (2 * v.α * v.h / (v.e ^ 2 * v.c)) (dimSI 1 (-2) 1 (-2) 0) := by
  obtain ⟨u, e, r⟩ := rep_mu0 (σ := σ) hv
  exact isOf e r rfl (fun _ => rfl)

theorem rep_eps0 (hv : v.Pos) : ∃ u, eps0 σ v = .ok u ∧
    RepU u (v.e ^ 2 / (2 * v.α * v.h * v.c)) (dimSI (-3) 4 (-1) 2 0) := by
  obtain ⟨m, e1, r1⟩ := rep_mu0 (σ := σ) hv
  obtain ⟨c, e3, r3⟩ := rep_c (σ := σ) (v := v)
  have hα := hv.α; have hh := hv.h; have he := hv.e; have hc := hv.c
  obtain ⟨x, e2, r2⟩ := r1.rdivReal 1 (by positivity)
  obtain ⟨c2, e4, r4⟩ := r3.pow hv.c.ne' 2
  obtain ⟨y, e5, r5⟩ := r2.div (σ := σ) r4 (by positivity)
  have r7 := r5.constant
  refine ⟨_, ?_, r7.wf, ?_, fun k => ?_⟩
  · unfold eps0
    rw [show (2 : ℚ) = ((2 : ℕ) : ℚ) by norm_num]
    simp only [e1, e2, e3, e4, e5, bind, Except.bind, pure, Except.pure]
  · rw [r7.val]; field_simp
  · rw [r7.exp]; congr 1; unfold dimSI; split_ifs <;> simp

/-- **C11c.** `ε₀ = e²/(2αhc)` in A² s⁴ kg⁻¹ m⁻³, and `ε₀ µ₀ c² == 1` as units. -/
theorem C11_eps0 (σ : SetOrder) (v : Vals) (hv : v.Pos) :
    Is (eps0 σ v) (v.e ^ 2 / (2 * v.α * v.h * v.c)) (dimSI (-3) 4 (-1) 2 0) ∧
    ∃ ε m0 c c2, eps0 σ v = .ok ε ∧ mu0 σ v = .ok m0 ∧ c_ σ v = .ok c ∧ c.pow 2 = .ok c2 ∧
      ((ε.mul σ m0).mul σ c2).eq Units.Unit.one = true := by
  obtain ⟨ε, e1, r1⟩ := rep_eps0 (σ := σ) hv
  obtain ⟨m0, e2, r2⟩ := rep_mu0 (σ := σ) hv
  obtain ⟨c, e3, r3⟩ := rep_c (σ := σ) (v := v)
  obtain ⟨c2, e4, r4⟩ := r3.pow hv.c.ne' 2
  have hα := hv.α; have hh := hv.h; have he := hv.e; have hc := hv.c
  refine ⟨isOf e1 r1 rfl (fun _ => rfl), ε, m0, c, c2, e1, e2, e3, by exact_mod_cast e4, ?_⟩
  have r := (r1.mul (σ := σ) r2).mul (σ := σ) r4
  refine (Units.eq_iff r.wf Units.wf_one).mpr ⟨?_, fun k => ?_⟩
  · rw [r.val, rep_one.val]; field_simp
  · rw [r.exp, Units.exp_one]
    unfold dimSI
    split_ifs <;> norm_num

/-- **C11d.** Fine-structure constant recovered: `e²/(4π ε₀ ħ c) = α`, dimensionless (as SI values). -/
theorem C11_alpha (σ : SetOrder) (v : Vals) (hv : v.Pos) :
    ∃ ε ħ, eps0 σ v = .ok ε ∧ hbar σ v = .ok ħ ∧
      v.e ^ 2 / (4 * Real.pi * ε.value * ħ.value * v.c) = v.α := by
  obtain ⟨ε, e1, r1⟩ := rep_eps0 (σ := σ) hv
  obtain ⟨ħ, e2, r2⟩ := rep_hbar (σ := σ) (v := v)
  have hα := hv.α; have hh := hv.h; have he := hv.e; have hc := hv.c; have hp := Real.pi_pos
  refine ⟨ε, ħ, e1, e2, ?_⟩
  rw [r1.val, r2.val]; field_simp; norm_num

/-- **C11e.** Bohr and nuclear magnetons: `eħ/2m` in A m² (J/T). -/
theorem C11_magnetons (σ : SetOrder) (v : Vals) (hv : v.Pos) :
    Is (muB σ v) (v.e * v.h / (4 * Real.pi * v.m_e)) (dimSI 2 0 0 1 0) ∧
    Is (muN σ v) (v.e * v.h / (4 * Real.pi * v.m_p)) (dimSI 2 0 0 1 0) := by
  obtain ⟨ħ, e1, r1⟩ := rep_hbar (σ := σ) (v := v)
  obtain ⟨e, e2, r2⟩ := rep_e (σ := σ) (v := v)
  have hme := hv.m_e; have hmp := hv.m_p; have hp := Real.pi_pos
  constructor
  · obtain ⟨y, e5, r5⟩ := (r2.mul (σ := σ) r1).div (σ := σ) ((rep_m_e (v := v)).mulReal 2) (by positivity)
    refine isOf (u := constant y) ?_ r5.constant ?_ ?_
    · unfold muB; simp only [e1, e2, e5, bind, Except.bind, pure, Except.pure]
    · field_simp; norm_num
    · intro k; unfold dimSI; split_ifs <;> simp
  · obtain ⟨y, e5, r5⟩ := (r2.mul (σ := σ) r1).div (σ := σ) ((rep_m_p (v := v)).mulReal 2) (by positivity)
    refine isOf (u := constant y) ?_ r5.constant ?_ ?_
    · unfold muN; simp only [e1, e2, e5, bind, Except.bind, pure, Except.pure]
    · field_simp; norm_num
    · intro k; unfold dimSI; split_ifs <;> simp

theorem rep_a0 (hv : v.Pos) : ∃ u, a0 σ v = .ok u ∧
    RepU u (v.h / (2 * Real.pi * v.α * v.m_e * v.c)) (dimSI 1 0 0 0 0) := by
  obtain ⟨ħ, e1, r1⟩ := rep_hbar (σ := σ) (v := v)
  obtain ⟨c, e3, r3⟩ := rep_c (σ := σ) (v := v)
  have hα := hv.α; have hme := hv.m_e; have hc := hv.c; have hp := Real.pi_pos
  obtain ⟨y, e5, r5⟩ := r1.div (σ := σ) (((rep_α (v := v)).mul (σ := σ) (rep_m_e (v := v))).mul (σ := σ) r3) (by positivity)
  have r7 := r5.constant
  refine ⟨_, ?_, r7.wf, ?_, fun k => ?_⟩
  · unfold a0; simp only [e1, e3, e5, bind, Except.bind, pure, Except.pure]
  · rw [r7.val]; field_simp
  · rw [r7.exp]; congr 1; unfold dimSI; split_ifs <;> simp

/-- **C11f.** Rydberg constant and Bohr radius: lengths of dimension -1 and 1 with
`R∞ = α/(4π a₀)`. -/
theorem C11_rydberg_bohr (σ : SetOrder) (v : Vals) (hv : v.Pos) :
    ∃ R a, ryd σ v = .ok R ∧ a0 σ v = .ok a ∧ R.value = v.α / (4 * Real.pi * a.value) ∧
      R.value = v.α ^ 2 * v.m_e * v.c / (2 * v.h) ∧
      (∀ k, R.exp k = dimSI (-1) 0 0 0 0 k) ∧ (∀ k, a.exp k = dimSI 1 0 0 0 0 k) := by
  obtain ⟨a, e1, r1⟩ := rep_a0 (σ := σ) hv
  obtain ⟨c, e3, r3⟩ := rep_c (σ := σ) (v := v)
  obtain ⟨h, e4, r4⟩ := rep_h (σ := σ) (v := v)
  have hα := hv.α; have hme := hv.m_e; have hc := hv.c; have hh := hv.h; have hp := Real.pi_pos
  obtain ⟨a2, e2, r2⟩ := (rep_α (v := v)).pow hα.ne' 2
  obtain ⟨y, e5, r5⟩ := ((r2.mul (σ := σ) (rep_m_e (v := v))).mul (σ := σ) r3).div (σ := σ) (r4.mulReal 2) (by positivity)
  have r7 := r5.constant
  refine ⟨constant y, a, ?_, e1, ?_, ?_, fun k => ?_, fun k => r1.exp k⟩
  · unfold ryd
    rw [show (2 : ℚ) = ((2 : ℕ) : ℚ) by norm_num]
    simp only [e2, e3, e4, e5, bind, Except.bind, pure, Except.pure]
  · rw [r7.val, r1.val]; field_simp; norm_num
  · rw [r7.val]; field_simp
  · rw [r7.exp]; congr 1; unfold dimSI; split_ifs <;> simp

/-- **C11g.** Thomson cross section is `(8π/3) r_e²` with the classical electron radius
`r_e = α² a₀`, an area. -/
theorem C11_thomson (σ : SetOrder) (v : Vals) (hv : v.Pos) :
    ∃ a, a0 σ v = .ok a ∧
      Is (sigmaE σ v) (8 * Real.pi / 3 * (v.α ^ 2 * a.value) ^ 2) (dimSI 2 0 0 0 0) := by
  obtain ⟨a, e1, r1⟩ := rep_a0 (σ := σ) hv
  have hα := hv.α; have hme := hv.m_e; have hc := hv.c; have hh := hv.h; have hp := Real.pi_pos
  obtain ⟨a4, e2, r2⟩ := (rep_α (v := v)).pow hα.ne' 4
  obtain ⟨q, e3, r3⟩ := r1.pow (by positivity) 2
  have r := ((r2.mulReal (8 * Real.pi / 3)).mul (σ := σ) r3).constant
  refine ⟨a, e1, isOf (u := constant ((a4.mulReal (8 * Real.pi / 3)).mul σ q)) ?_ r ?_ ?_⟩
  · unfold sigmaE
    rw [show (2 : ℚ) = ((2 : ℕ) : ℚ) by norm_num, show (4 : ℚ) = ((4 : ℕ) : ℚ) by norm_num]
    simp only [e1, e2, e3, bind, Except.bind, pure, Except.pure]
  · rw [r1.val]; ring
  · intro k; unfold dimSI; split_ifs <;> simp

/-- **C11h.** Stefan-Boltzmann constant is `2π⁵k⁴/(15h³c²)` in kg s⁻³ K⁻⁴. -/
theorem C11_stefan_boltzmann (σ : SetOrder) (v : Vals) (hv : v.Pos) :
    Is (sigmaSB σ v) (2 * Real.pi ^ 5 * v.k ^ 4 / (15 * v.h ^ 3 * v.c ^ 2)) (dimSI 0 (-3) 1 0 (-4)) := by
  obtain ⟨ħ, e1, r1⟩ := rep_hbar (σ := σ) (v := v)
  obtain ⟨c, e3, r3⟩ := rep_c (σ := σ) (v := v)
  obtain ⟨k, e2, r2⟩ := rep_k (σ := σ) (v := v)
  have hk := hv.k; have hc := hv.c; have hh := hv.h; have hp := Real.pi_pos
  obtain ⟨k4, e4, r4⟩ := r2.pow hk.ne' 4
  obtain ⟨ħ3, e5, r5⟩ := r1.pow (by positivity) 3
  obtain ⟨c2, e6, r6⟩ := r3.pow hc.ne' 2
  obtain ⟨y, e7, r7⟩ := (r4.mulReal (Real.pi ^ 2 / 60)).div (σ := σ) (r5.mul (σ := σ) r6) (by positivity)
  refine isOf (u := constant y) ?_ r7.constant ?_ ?_
  · unfold sigmaSB
    rw [show (2 : ℚ) = ((2 : ℕ) : ℚ) by norm_num, show (4 : ℚ) = ((4 : ℕ) : ℚ) by norm_num,
      show (3 : ℚ) = ((3 : ℕ) : ℚ) by norm_num]
    simp only [e1, e2, e3, e4, e5, e6, e7, bind, Except.bind, pure, Except.pure]
  · field_simp; norm_num
  · intro k; unfold dimSI; split_ifs <;> simp

/-- **C11i.** Wien constants: `b` is a length times temperature, `b'` a frequency per temperature, and
`b * b' = c * (x_ν / x_λ)` with the two hard-coded dimensionless roots. -/
theorem C11_wien (σ : SetOrder) (v : Vals) (hv : v.Pos) :
    Is (wienB σ v) (v.h * v.c / (v.k * 4.965114231744276303)) (dimSI 1 0 0 0 1) ∧
    Is (wienBp σ v) (2.821439372122078893 * v.k / v.h) (dimSI 0 (-1) 0 0 (-1)) := by
  obtain ⟨h, e1, r1⟩ := rep_h (σ := σ) (v := v)
  obtain ⟨c, e3, r3⟩ := rep_c (σ := σ) (v := v)
  obtain ⟨k, e2, r2⟩ := rep_k (σ := σ) (v := v)
  have hk := hv.k; have hc := hv.c; have hh := hv.h
  constructor
  · obtain ⟨x, e4, r4⟩ := (r1.mul (σ := σ) r3).div (σ := σ) r2 hk.ne'
    obtain ⟨y, e5, r5⟩ := r4.divReal 4.965114231744276303 (by norm_num)
    refine isOf (u := constant y) ?_ r5.constant ?_ ?_
    · unfold wienB; simp only [e1, e2, e3, e4, e5, bind, Except.bind, pure, Except.pure]
    · rw [div_div]
    · intro k; unfold dimSI; split_ifs <;> simp
  · obtain ⟨y, e5, r5⟩ := (r2.mulReal 2.821439372122078893).div (σ := σ) r1 hh.ne'
    refine isOf (u := constant y) ?_ r5.constant ?_ ?_
    · unfold wienBp; simp only [e1, e2, e5, bind, Except.bind, pure, Except.pure]
    · rw [mul_comm]
    · intro k; unfold dimSI; split_ifs <;> simp

/-- Non-vacuity: the 2018 release has positive values. -/
example : (⟨299792458, 6.62607015e-34, 1.380649e-23, 6.02214076e23, 1.602176634e-19, 101325, 9.80665,
    7.2973525693e-3, 6.67430e-11, 1.67262192369e-27, 1.67492749804e-27, 9.1093837015e-31,
    1.66053906660e-27⟩ : Vals).Pos := by
  constructor <;> norm_num

/-- The constants of CODATA 2018. -/
noncomputable def refVals : Vals := ⟨299792458, 6.62607015e-34, 1.380649e-23, 6.02214076e23, 1.602176634e-19, 101325, 9.80665,
    7.2973525693e-3, 6.67430e-11, 1.67262192369e-27, 1.67492749804e-27, 9.1093837015e-31, 1.66053906660e-27⟩

theorem refVals_pos : refVals.Pos := by constructor <;> norm_num [refVals]

/-- `C11_mu0`, `C11_eps0`, `C11_alpha`, `C11_magnetons`, `C11_rydberg_bohr`, `C11_thomson`, `C11_stefan_boltzmann` for them. -/
example (σ : SetOrder) := C11_mu0 σ refVals refVals_pos
example (σ : SetOrder) := C11_eps0 σ refVals refVals_pos
example (σ : SetOrder) := C11_alpha σ refVals refVals_pos
example (σ : SetOrder) := C11_magnetons σ refVals refVals_pos
example (σ : SetOrder) := C11_rydberg_bohr σ refVals refVals_pos
example (σ : SetOrder) := C11_thomson σ refVals refVals_pos
example (σ : SetOrder) := C11_stefan_boltzmann σ refVals refVals_pos

end Verif.Consts
