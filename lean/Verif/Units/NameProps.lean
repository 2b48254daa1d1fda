import Verif.Units.NameModel
import Verif.Units.Props

/-! # C122, C123: names of units and conversion to Astropy -/

namespace Verif.Units.Name
open Verif.Units

/-! ## C123: specification — reading a name -/

/-- What a text stands for: a number and the exponents of the dimensions. -/
@[ext] structure Meaning where
  value : ℝ
  exp : Dim → ℚ

/-- Product. -/
def Meaning.mul (a b : Meaning) : Meaning := ⟨a.value * b.value, fun k => a.exp k + b.exp k⟩

/-- Power. -/
noncomputable def Meaning.pow (a : Meaning) (p : ℚ) : Meaning := ⟨a.value ^ (p : ℝ), fun k => a.exp k * p⟩

/-- Nothing. -/
def Meaning.one : Meaning := ⟨1, fun _ => 0⟩

/-- What a unit is. -/
def meaning (u : Unit) : Meaning := ⟨u.value, u.exp⟩

/-- While reading: the product of the factors before the last one, and the last one, which a power applies to; inside brackets these are remembered for the text around. -/
structure Reader where
  acc : Meaning
  last : Meaning
  outer : List (Meaning × Meaning)

/-- Reading a token, from left to right; `env` are the named units. A factor follows another one: product. `^(p)` applies to the factor just before it, a bracketed text counts as a factor. -/
noncomputable def Reader.step (env : String → Meaning) (r : Reader) : Tok → Option Reader
  | .sym s => some ⟨r.acc.mul r.last, env s, r.outer⟩
  | .num x => some ⟨r.acc.mul r.last, ⟨x, fun _ => 0⟩, r.outer⟩
  | .dims d => some ⟨r.acc.mul r.last, ⟨1, dget d⟩, r.outer⟩
  | .space | .times => some r
  | .pow p => some { r with last := r.last.pow p }
  | .lpar => some ⟨.one, .one, (r.acc, r.last) :: r.outer⟩
  | .rpar => match r.outer with
    | [] => none
    | (a, l) :: o => some ⟨a.mul l, r.acc.mul r.last, o⟩

/-- Reading a text. -/
noncomputable def readFrom (env : String → Meaning) : List Tok → Reader → Option Reader
  | [], r => some r
  | t :: ts, r => (r.step env t).bind (readFrom env ts)

/-- What a text stands for; brackets have to match. -/
noncomputable def read (env : String → Meaning) (ts : List Tok) : Option Meaning :=
  match readFrom env ts ⟨.one, .one, []⟩ with
  | some ⟨a, l, []⟩ => some (a.mul l)
  | _ => none

/-- Python expressions for units. -/
inductive NExpr
  | lit (items : List (Dim × ℚ)) (v : ℝ) (s : Option String)
  | setName (a : NExpr) (s : String)
  | mul (σ : SetOrder) (a b : NExpr)
  | mulReal (a : NExpr) (x : ℝ)
  | inv (a : NExpr)
  | pow (a : NExpr) (p : ℚ)
  | div (σ : SetOrder) (a b : NExpr)
  | rdivReal (a : NExpr) (x : ℝ)

/-- Their values. -/
noncomputable def NExpr.eval : NExpr → Except Err NUnit
  | .lit i v s => .ok (.lit i v s)
  | .setName a s => do return (← a.eval).setName s
  | .mul σ a b => do return (← a.eval).mul σ (← b.eval)
  | .mulReal a x => do return (← a.eval).mulReal x
  | .inv a => do (← a.eval).inv
  | .pow a p => do (← a.eval).pow p
  | .div σ a b => do (← a.eval).div σ (← b.eval)
  | .rdivReal a x => do (← a.eval).rdivReal x

/-- The names given are those of `env`: `set_name` (or a named literal) names the unit that `env` knows by this name. -/
def NExpr.Named (env : String → Meaning) : NExpr → Prop
  | .lit i v s => ∀ n, s = some n → env n = meaning (Unit.mk' i v)
  | .setName a s => a.Named env ∧ ∀ u, a.eval = .ok u → env s = meaning u.unit
  | .mul _ a b | .div _ a b => a.Named env ∧ b.Named env
  | .mulReal a _ | .inv a | .rdivReal a _ => a.Named env
  | .pow a _ => a.Named env

/-- All exponents that occur have denominators up to 10^6 (so that none is rounded). -/
def NExpr.Small : NExpr → Prop
  | .lit _ _ _ => True
  | .setName a _ | .mulReal a _ | .inv a | .rdivReal a _ => a.Small
  | .mul _ a b => a.Small ∧ b.Small ∧ ∀ u v, a.eval = .ok u → b.eval = .ok v → ∀ k, (u.unit.exp k + v.unit.exp k).den ≤ 1000000
  | .div _ a b => a.Small ∧ b.Small ∧ ∀ u v, a.eval = .ok u → b.eval = .ok v → ∀ k, (u.unit.exp k - v.unit.exp k).den ≤ 1000000
  | .pow a p => a.Small ∧ p.den ≤ 1000000 ∧ ∀ u, a.eval = .ok u → ∀ k, (u.unit.exp k * p).den ≤ 1000000

/-! ## Proof -/

theorem mul_assoc' (a b c : Meaning) : (a.mul b).mul c = a.mul (b.mul c) :=
  Meaning.ext (mul_assoc _ _ _) (funext fun _ => add_assoc _ _ _)

theorem mul_one' (a : Meaning) : a.mul .one = a := Meaning.ext (mul_one _) (funext fun _ => add_zero _)

theorem one_mul' (a : Meaning) : Meaning.one.mul a = a := Meaning.ext (one_mul _) (funext fun _ => zero_add _)

theorem readFrom_append (env) : ∀ (s t : List Tok) (r : Reader), readFrom env (s ++ t) r = (readFrom env s r).bind (readFrom env t)
  | [], t, r => rfl
  | x :: s, t, r => by
    simp only [List.cons_append, readFrom]
    cases r.step env x with
    | none => rfl
    | some r' => exact readFrom_append env s t r'

/-- A text stands for `m`: as the next factors of any text; without blanks it is a single factor. -/
def Denotes (env : String → Meaning) (t : List Tok) (m : Meaning) : Prop :=
  ∀ r : Reader, ∃ a l, readFrom env t r = some ⟨a, l, r.outer⟩ ∧ a.mul l = (r.acc.mul r.last).mul m ∧
    (t.any Tok.isSpace = false → a = r.acc.mul r.last ∧ l = m)

/-- A single factor. -/
def IsFactor (env : String → Meaning) (t : List Tok) (m : Meaning) : Prop :=
  ∀ r : Reader, readFrom env t r = some ⟨r.acc.mul r.last, m, r.outer⟩

theorem IsFactor.denotes {env t m} (h : IsFactor env t m) : Denotes env t m :=
  fun r => ⟨_, _, h r, rfl, fun _ => ⟨rfl, rfl⟩⟩

theorem denotes_bracketed {env} {u : NUnit} {m} (h : Denotes env u.str m) : IsFactor env u.bracketed m := by
  intro r
  unfold NUnit.bracketed
  split
  · obtain ⟨a, l, h1, h2, -⟩ := h ⟨.one, .one, (r.acc, r.last) :: r.outer⟩
    rw [List.cons_append]
    simp only [readFrom, Reader.step, Option.bind_some]
    rw [readFrom_append, h1]
    simp only [Option.bind_some, readFrom, Reader.step]
    rw [h2]
    simp only [mul_one', one_mul']
  · rename_i hs
    obtain ⟨a, l, h1, -, h3⟩ := h r
    obtain ⟨rfl, rfl⟩ := h3 (by simpa using hs)
    exact h1

theorem factor_pow {env t m} (h : IsFactor env t m) (p : ℚ) : IsFactor env (t ++ [.pow p]) (m.pow p) := by
  intro r
  rw [readFrom_append, h r]
  rfl

theorem denotes_mul {env s t m n} (h : Denotes env s m) (h' : Denotes env t n) : Denotes env (s ++ .space :: t) (m.mul n) := by
  intro r
  obtain ⟨a, l, h1, h2, -⟩ := h r
  obtain ⟨a', l', h1', h2', -⟩ := h' ⟨a, l, r.outer⟩
  refine ⟨a', l', ?_, ?_, ?_⟩
  · rw [readFrom_append, h1]
    exact h1'
  · rw [h2', h2, mul_assoc']
  · intro hf
    simp [List.any_append, Tok.isSpace] at hf

theorem denotes_num {env t m} (h : IsFactor env t m) (x : ℝ) : Denotes env (.num x :: .space :: t) (Meaning.mul ⟨x, fun _ => 0⟩ m) := by
  intro r
  refine ⟨(r.acc.mul r.last).mul ⟨x, fun _ => 0⟩, m, ?_, by rw [mul_assoc'], fun hf => by simp [Tok.isSpace] at hf⟩
  simp only [readFrom, Reader.step, Option.bind_some]
  exact h ⟨r.acc.mul r.last, ⟨x, fun _ => 0⟩, r.outer⟩

/-- The display of a unit without a name. -/
theorem denotes_unnamed (env) (u : Unit) : Denotes env [.num u.value, .space, .times, .space, .dims u.dims] (meaning u) := by
  intro r
  refine ⟨(r.acc.mul r.last).mul ⟨u.value, fun _ => 0⟩, ⟨1, dget u.dims⟩, rfl, ?_, fun hf => by simp [Tok.isSpace] at hf⟩
  rw [mul_assoc']
  congr 1
  exact Meaning.ext (mul_one _) (funext fun _ => zero_add _)

/-- What is to be shown of a unit that has been computed. -/
def Good (env : String → Meaning) (u : NUnit) : Prop := u.unit.WF ∧ Denotes env u.str (meaning u.unit)

theorem str_some {u : Unit} {t : List Tok} (h : t ≠ []) : (⟨u, some t⟩ : NUnit).str = t := by
  cases t with
  | nil => exact absurd rfl h
  | cons a l => rfl

theorem factor_ne_nil {env t m} (h : IsFactor env t m) : t ≠ [] := by
  rintro rfl
  have := h ⟨⟨2, fun _ => 0⟩, ⟨2, fun _ => 0⟩, []⟩
  simp only [readFrom, Option.some.injEq, Reader.mk.injEq] at this
  have := congrArg Meaning.value this.1
  norm_num [Meaning.mul] at this

theorem good_inv {env} {u w : NUnit} (hu : Good env u) (h : u.inv = .ok w) : Good env w ∧ meaning w.unit = (meaning u.unit).pow (-1) := by
  unfold NUnit.inv Unit.inv at h
  split at h
  · cases h
  · simp only [bind, Except.bind, pure, Except.pure, Except.ok.injEq] at h
    subst h
    have hm : meaning ⟨dinv u.unit.dims, 1 / u.unit.value⟩ = (meaning u.unit).pow (-1) := by
      refine Meaning.ext ?_ (funext fun k => ?_)
      · simp only [meaning, Meaning.pow]
        push_cast
        rw [Real.rpow_neg_one, one_div]
      · simp only [meaning, Meaning.pow, Unit.exp]
        rw [dget_dinv (wf_iff.mp hu.1)]
        ring
    refine ⟨⟨wf_dinv _ _, ?_⟩, hm⟩
    rw [str_some (by simp), hm]
    exact (factor_pow (denotes_bracketed hu.2) _).denotes

theorem good_pow {env} {u w : NUnit} {p : ℚ} (hu : Good env u) (hp : p.den ≤ 1000000) (hk : ∀ k, (u.unit.exp k * p).den ≤ 1000000)
    (h : u.pow p = .ok w) : Good env w ∧ meaning w.unit = (meaning u.unit).pow p := by
  unfold NUnit.pow at h
  cases hw : u.unit.pow p with
  | error e => rw [hw] at h; cases h
  | ok v =>
    rw [hw] at h
    simp only [bind, Except.bind, pure, Except.pure, Except.ok.injEq] at h
    subst h
    obtain ⟨h1, h2⟩ := pow_ok hw
    have hm : meaning v = (meaning u.unit).pow p := by
      refine Meaning.ext h2 (funext fun k => ?_)
      simp only [meaning, Meaning.pow, Unit.exp]
      rw [h1, dget_dpow (wf_iff.mp hu.1)]
      exact limDen_of_le (hk k)
    refine ⟨⟨?_, ?_⟩, hm⟩
    · have : v = ⟨dpow u.unit.dims p, v.value⟩ := by rw [← h1]
      rw [this]
      exact wf_dpow _ _ _
    · rw [str_some (by simp)]
      show Denotes env _ (meaning v)
      rw [hm, limDen_of_le hp]
      exact (factor_pow (denotes_bracketed hu.2) _).denotes

theorem good_mul {env} (σ) {u v : NUnit} (hu : Good env u) (hv : Good env v) (hk : ∀ k, (u.unit.exp k + v.unit.exp k).den ≤ 1000000) :
    Good env (u.mul σ v) := by
  refine ⟨wf_mul _ _ _, ?_⟩
  unfold NUnit.mul
  rw [str_some (by simp)]
  have hm : meaning (u.unit.mul σ v.unit) = (meaning u.unit).mul (meaning v.unit) := by
    refine Meaning.ext rfl (funext fun k => ?_)
    simp only [meaning, Meaning.mul, Unit.mul, Unit.exp]
    rw [dget_dmul]
    exact limDen_of_le (hk k)
  show Denotes env _ (meaning (u.unit.mul σ v.unit))
  rw [hm]
  exact denotes_mul hu.2 hv.2

theorem good_mulReal {env} {u : NUnit} (hu : Good env u) (x : ℝ) : Good env (u.mulReal x) := by
  refine ⟨wf_mk _ _, ?_⟩
  unfold NUnit.mulReal
  rw [str_some (by simp)]
  have hm : meaning (u.unit.mulReal x) = Meaning.mul ⟨x, fun _ => 0⟩ (meaning u.unit) := by
    refine Meaning.ext (mul_comm _ _) (funext fun k => ?_)
    simp only [meaning, Meaning.mul, Unit.mulReal, Unit.exp]
    rw [dget_mkDims_self (wf_iff.mp hu.1), zero_add]
  show Denotes env _ (meaning (u.unit.mulReal x))
  rw [hm]
  exact denotes_num (denotes_bracketed hu.2) x

theorem good_eval (env : String → Meaning) : ∀ (e : NExpr) (u : NUnit), e.Named env → e.Small → e.eval = .ok u → Good env u := by
  intro e
  induction e with
  | lit i v s =>
    intro u hn _ h
    simp only [NExpr.eval, Except.ok.injEq] at h
    subst h
    refine ⟨wf_mk _ _, ?_⟩
    cases s with
    | none => exact denotes_unnamed env _
    | some n =>
      have := hn n rfl
      refine IsFactor.denotes fun r => ?_
      show some _ = some _
      rw [this]
      rfl
  | setName a s ih =>
    intro u hn hs h
    simp only [NExpr.eval] at h
    cases ha : a.eval with
    | error e => rw [ha] at h; cases h
    | ok w =>
      rw [ha] at h
      simp only [bind, Except.bind, pure, Except.pure, Except.ok.injEq] at h
      subst h
      refine ⟨(ih w hn.1 hs ha).1, IsFactor.denotes fun r => ?_⟩
      show some _ = some _
      rw [hn.2 w ha]
      rfl
  | mul σ a b iha ihb =>
    intro u hn hs h
    simp only [NExpr.eval] at h
    cases ha : a.eval with
    | error e => rw [ha] at h; cases h
    | ok x =>
      cases hb : b.eval with
      | error e => rw [ha, hb] at h; cases h
      | ok y =>
        rw [ha, hb] at h
        simp only [bind, Except.bind, pure, Except.pure, Except.ok.injEq] at h
        subst h
        exact good_mul σ (iha x hn.1 hs.1 ha) (ihb y hn.2 hs.2.1 hb) (hs.2.2 x y ha hb)
  | mulReal a x ih =>
    intro u hn hs h
    simp only [NExpr.eval] at h
    cases ha : a.eval with
    | error e => rw [ha] at h; cases h
    | ok w =>
      rw [ha] at h
      simp only [bind, Except.bind, pure, Except.pure, Except.ok.injEq] at h
      subst h
      exact good_mulReal (ih w hn hs ha) x
  | inv a ih =>
    intro u hn hs h
    simp only [NExpr.eval] at h
    cases ha : a.eval with
    | error e => rw [ha] at h; cases h
    | ok w =>
      rw [ha] at h
      exact (good_inv (ih w hn hs ha) h).1
  | pow a p ih =>
    intro u hn hs h
    simp only [NExpr.eval] at h
    cases ha : a.eval with
    | error e => rw [ha] at h; cases h
    | ok w =>
      rw [ha] at h
      exact (good_pow (ih w hn hs.1 ha) hs.2.1 (hs.2.2 w ha) h).1
  | div σ a b iha ihb =>
    intro u hn hs h
    simp only [NExpr.eval] at h
    cases ha : a.eval with
    | error e => rw [ha] at h; cases h
    | ok x =>
      cases hb : b.eval with
      | error e => rw [ha, hb] at h; cases h
      | ok y =>
        rw [ha, hb] at h
        simp only [bind, Except.bind, NUnit.div] at h
        cases hp : y.pow (-1) with
        | error e => rw [hp] at h; cases h
        | ok w =>
          rw [hp] at h
          simp only [pure, Except.pure, Except.ok.injEq] at h
          subst h
          have hy := ihb y hn.2 hs.2.1 hb
          obtain ⟨h1, h2⟩ := good_pow hy (by norm_num) (fun k => by
            have := dget_den_le (wf_iff.mp hy.1) k
            rw [mul_neg_one, Rat.den_neg_eq_den]
            exact this) hp
          refine good_mul σ (iha x hn.1 hs.1 ha) h1 fun k => ?_
          have := congrFun (congrArg Meaning.exp h2) k
          simp only [meaning, Meaning.pow] at this
          rw [this, mul_neg_one, ← sub_eq_add_neg]
          exact hs.2.2 x y ha hb k
  | rdivReal a x ih =>
    intro u hn hs h
    simp only [NExpr.eval] at h
    cases ha : a.eval with
    | error e => rw [ha] at h; cases h
    | ok w =>
      rw [ha] at h
      simp only [bind, Except.bind, NUnit.rdivReal] at h
      cases hp : w.inv with
      | error e => rw [hp] at h; cases h
      | ok v =>
        rw [hp] at h
        simp only [pure, Except.pure, Except.ok.injEq] at h
        subst h
        exact good_mulReal (good_inv (ih w hn hs ha) hp).1 x

/-- **C123, partial**: the displayed name of any computed unit, read from left to right, stands for the unit, if no exponent has a denominator beyond 10^6.

Missing for the full property: see `C123_false` (larger denominators) and `C123_tower` (powers of powers read from right to left). -/
theorem C123_reads_partial (env : String → Meaning) (e : NExpr) (u : NUnit) (hn : e.Named env) (hs : e.Small) (h : e.eval = .ok u) :
    read env u.str = some (meaning u.unit) := by
  obtain ⟨a, l, h1, h2, -⟩ := (good_eval env e u hn hs h).2 ⟨.one, .one, []⟩
  unfold read
  rw [h1]
  simp only [h2, mul_one', one_mul']

/-- The metre. -/
def metre : NExpr := .lit [("L", 1)] 1 (some "m")

/-- Names known. -/
def si : String → Meaning := fun _ => ⟨1, fun k => if k = "L" then 1 else 0⟩

theorem metre_eval : metre.eval = .ok ⟨⟨[("L", 1)], 1⟩, some [.sym "m"]⟩ := by
  have : mkDims [("L", 1)] = [("L", 1)] := by decide +kernel
  simp only [metre, NExpr.eval, NUnit.lit, Unit.mk', this, Option.map_some]

theorem metre_exp (k : Dim) : (⟨[("L", 1)], 1⟩ : Unit).exp k = if k = "L" then 1 else 0 := by
  simp only [Unit.exp, dget, List.lookup_cons, List.lookup_nil]
  by_cases h : k = "L"
  · simp [h]
  · have : (k == "L") = false := by simpa using h
    simp [this, h]

theorem metre_named : metre.Named si := by
  intro n _
  have : mkDims [("L", 1)] = [("L", 1)] := by decide +kernel
  refine Meaning.ext rfl (funext fun k => ?_)
  simp only [meaning, Unit.mk', this]
  exact (metre_exp k).symm

theorem one_pow_eval (d : Dict) (t : List Tok) (p : ℚ) : NUnit.pow ⟨⟨d, 1⟩, some t⟩ p = .ok ⟨⟨dpow d p, 1⟩, some (NUnit.bracketed ⟨⟨d, 1⟩, some t⟩ ++ [.pow (limDen p)])⟩ := by
  unfold NUnit.pow
  rw [pow_eq_of_pos (by norm_num : (0 : ℝ) < (⟨d, 1⟩ : Unit).value)]
  simp only [bind, Except.bind, pure, Except.pure, Real.one_rpow]

/-- **C123 is false of the code** for large denominators: the name of `(m**(1/1000))**(1/1001)` is `m^(1/1000)^(1/1001)`, which is not the unit. -/
theorem C123_false : ¬ ∀ (env : String → Meaning) (e : NExpr) (u : NUnit), e.Named env → e.eval = .ok u → read env u.str = some (meaning u.unit) := by
  intro h
  have hm1 : limDen (1 / 1000) = 1 / 1000 := limDen_of_le (by decide +kernel)
  have hm2 : limDen (1 / 1001) = 1 / 1001 := limDen_of_le (by decide +kernel)
  have hd : dpow [("L", 1)] (1 / 1000) = [("L", 1 / 1000)] := by decide +kernel
  have he : (NExpr.pow (.pow metre (1 / 1000)) (1 / 1001)).eval =
      .ok ⟨⟨dpow [("L", 1 / 1000)] (1 / 1001), 1⟩, some [.sym "m", .pow (1 / 1000), .pow (1 / 1001)]⟩ := by
    simp only [NExpr.eval, metre_eval, bind, Except.bind, one_pow_eval, hm1, hd, hm2]
    simp [NUnit.bracketed, NUnit.str, Tok.isSpace]
  have := h si _ _ (show NExpr.Named si (.pow (.pow metre (1 / 1000)) (1 / 1001)) from metre_named) he
  simp only [NUnit.str, read, readFrom, Reader.step, Option.bind_some, Option.some.injEq] at this
  have := congrFun (congrArg Meaning.exp this) "L"
  simp only [Meaning.mul, Meaning.one, Meaning.pow, si, meaning, Unit.exp] at this
  have hden : (dget (dpow [("L", 1 / 1000)] (1 / 1001)) "L").den ≤ 1000000 := dget_den_le (mkDims_normal _) "L"
  rw [← this] at hden
  revert hden
  decide +kernel

/-- Exponent of a tower of powers read from right to left, as in mathematics and in Python: `a^(b^(...))`. -/
noncomputable def tower (ps : List ℚ) : ℝ := ps.foldr (fun p q => (p : ℝ) ^ q) 1

/-- **C123 is false of the code** if powers are read from right to left as usual: `(m**2)**3` is displayed as `m^(2)^(3)`, without brackets; the unit is `m^6`, the tower `m^8`. -/
theorem C123_tower : ∃ u : NUnit, (NExpr.pow (.pow metre 2) 3).eval = .ok u ∧ u.str = [.sym "m", .pow 2, .pow 3] ∧ u.unit.exp "L" = 6 ∧ tower [2, 3] = 8 := by
  have hm1 : limDen 2 = 2 := limDen_of_le (by decide +kernel)
  have hm2 : limDen 3 = 3 := limDen_of_le (by decide +kernel)
  have hd : dpow [("L", 1)] 2 = [("L", 2)] := by decide +kernel
  have hd2 : dpow [("L", 2)] 3 = [("L", 6)] := by decide +kernel
  refine ⟨⟨⟨[("L", 6)], 1⟩, some [.sym "m", .pow 2, .pow 3]⟩, ?_, rfl, by simp [Unit.exp, dget], ?_⟩
  · simp only [NExpr.eval, metre_eval, bind, Except.bind, one_pow_eval, hm1, hd]
    rw [hd2]
    simp [NUnit.bracketed, NUnit.str, Tok.isSpace, hm2]
  · simp only [tower, List.foldr_cons, List.foldr_nil, Real.rpow_one]
    norm_num

/-- Non-vacuity: `5 * (m*m)**(1/2)` is displayed as `5 (m m)^(1/2)`. -/
example : ∃ u, (NExpr.mulReal (.pow (.mul SetOrder.id metre metre) (1 / 2)) 5).eval = .ok u ∧
    u.str = [.num 5, .space, .lpar, .lpar, .sym "m", .space, .sym "m", .rpar, .pow (1 / 2), .rpar] ∧
    (NExpr.mulReal (.pow (.mul SetOrder.id metre metre) (1 / 2)) 5).Named si ∧ read si u.str = some (meaning u.unit) := by
  have hm1 : limDen (1 / 2) = 1 / 2 := limDen_of_le (by decide +kernel)
  have hmul : dmul SetOrder.id [("L", 1)] [("L", 1)] = [("L", 2)] := by decide +kernel
  have hd : dpow [("L", 2)] (1 / 2) = [("L", 1)] := by decide +kernel
  have hn : (NExpr.mulReal (.pow (.mul SetOrder.id metre metre) (1 / 2)) 5).Named si := ⟨metre_named, metre_named⟩
  have hem : (NExpr.mul SetOrder.id metre metre).eval = .ok ⟨⟨[("L", 2)], 1⟩, some [.sym "m", .space, .sym "m"]⟩ := by
    simp only [NExpr.eval, metre_eval, bind, Except.bind, pure, Except.pure, NUnit.mul, Unit.mul, hmul, mul_one, NUnit.str]
    rfl
  have he : (NExpr.mulReal (.pow (.mul SetOrder.id metre metre) (1 / 2)) 5).eval = .ok (NUnit.mulReal ⟨⟨[("L", 1)], 1⟩, some [.lpar, .sym "m", .space, .sym "m", .rpar, .pow (1 / 2)]⟩ 5) := by
    rw [NExpr.eval, NExpr.eval, hem]
    simp only [bind, Except.bind, one_pow_eval, hd, hm1]
    rfl
  refine ⟨_, he, ?_, hn, C123_reads_partial si _ _ hn ⟨⟨trivial, trivial, ?_⟩, by decide +kernel, ?_⟩ he⟩
  · simp [NUnit.mulReal, NUnit.str, NUnit.bracketed, Tok.isSpace]
  · intro u v hu hv k
    rw [metre_eval] at hu hv
    cases hu; cases hv
    simp only [metre_exp]
    split <;> norm_num
  · intro u hu k
    rw [hem] at hu
    cases hu
    have : (⟨[("L", 2)], 1⟩ : Unit).exp k = if k = "L" then 2 else 0 := by
      simp only [Unit.exp, dget, List.lookup_cons, List.lookup_nil]
      by_cases h : k = "L"
      · simp [h]
      · have : (k == "L") = false := by simpa using h
        simp [this, h]
    simp only [this]
    split <;> norm_num

/-! ## C122: conversion to Astropy -/

/-- The Astropy unit that equals a unit: same value, same exponents (phytorch's base units are those of the SI, `_si/_base_unit_map.py`). -/
def asAstropy (u : Unit) : AUnit := ⟨u.value, u.exp "L", u.exp "T", u.exp "M", u.exp "I", u.exp "Θ"⟩

/-- The five dimensions of the SI that phytorch knows. -/
def siDims : List Dim := ["L", "T", "M", "I", "Θ"]

theorem dget_cons {d k : Dim} {p : ℚ} {l : Dict} (h : d ∉ keys l) : dget ((d, p) :: l) k = (if k = d then p else 0) + dget l k := by
  unfold dget
  rw [List.lookup_cons]
  by_cases e : k = d
  · subst e
    rw [(lookup_eq_none_iff' l k).mpr h]
    simp
  · have : (k == d) = false := by simpa using e
    simp [this, e]

theorem dimmap_ok {d : Dim} (h : d ∈ siDims) (p : ℚ) : dimmap d p = .ok ⟨1, if "L" = d then p else 0, if "T" = d then p else 0, if "M" = d then p else 0,
    if "I" = d then p else 0, if "Θ" = d then p else 0⟩ := by
  simp only [siDims, List.mem_cons, List.not_mem_nil, or_false] at h
  rcases h with rfl | rfl | rfl | rfl | rfl <;> simp [dimmap]

theorem mulAll_ok : ∀ (l : Dict) (a : AUnit), (∀ dp ∈ l, dp.1 ∈ siDims) → (keys l).Nodup →
    mulAll l a = .ok ⟨a.scale, a.m + dget l "L", a.s + dget l "T", a.kg + dget l "M", a.A + dget l "I", a.K + dget l "Θ"⟩ := by
  intro l
  induction l with
  | nil => intro a _ _; simp [mulAll, dget_nil]
  | cons x l ih =>
    obtain ⟨d, p⟩ := x
    intro a h hn
    have hn' : d ∉ keys l ∧ (keys l).Nodup := by simpa [keys] using hn
    unfold mulAll
    rw [dimmap_ok (h (d, p) (by simp))]
    simp only [bind, Except.bind]
    rw [ih _ (fun dp hdp => h dp (by simp [hdp])) hn'.2]
    simp only [AUnit.mul, dget_cons hn'.1, mul_one, add_assoc]

/-- **C122, partial**: a unit that is not dimensionless, of SI dimensions only, is converted to the Astropy unit with the same value and exponents.

Missing for the full property: dimensionless units (`C122_dimensionless`). -/
theorem C122_converts_partial (u : Unit) (hu : u.WF) (h : ∀ k, u.exp k ≠ 0 → k ∈ siDims) (h0 : ∃ k, u.exp k ≠ 0) :
    toAstropy u = .ok (asAstropy u) := by
  have hn := wf_iff.mp hu
  have hmem : ∀ dp ∈ u.dims, dp.1 ∈ siDims := fun dp hdp => h dp.1 (by
    unfold Unit.exp
    rw [dget_of_mem hn.nodup (k := dp.1) (v := dp.2) hdp]
    exact hn.nonzero dp hdp)
  obtain ⟨ds, v⟩ := u
  simp only at hn hmem
  cases ds with
  | nil =>
    obtain ⟨k, hk⟩ := h0
    exact absurd (dget_nil k) hk
  | cons x l =>
    obtain ⟨d, p⟩ := x
    have hn' : d ∉ keys l ∧ (keys l).Nodup := by simpa [keys] using hn.nodup
    unfold toAstropy baseToAstropy
    simp only
    rw [dimmap_ok (hmem (d, p) (by simp))]
    simp only [bind, Except.bind]
    rw [mulAll_ok _ _ (fun dp hdp => hmem dp (by simp [hdp])) hn'.2]
    simp only [pure, Except.pure, asAstropy, Unit.exp, dget_cons hn'.1, one_mul]

/-- **C122 is false of the code**: every dimensionless unit (radian, degree, `Unit()`, `m/m` ...) raises `TypeError`: `reduce() of empty iterable with no initial value`. -/
theorem C122_dimensionless (u : Unit) (hu : u.WF) (h : ∀ k, u.exp k = 0) : toAstropy u = .error .emptyReduce := by
  have hn := wf_iff.mp hu
  have : u.dims = [] := by
    cases hd : u.dims with
    | nil => rfl
    | cons x l =>
      have := h x.1
      unfold Unit.exp at this
      rw [dget_of_mem hn.nodup (k := x.1) (v := x.2) (by simp [hd])] at this
      exact absurd this (hn.nonzero x (by simp [hd]))
  unfold toAstropy
  rw [this]
  rfl

/-- A dimension beyond those of the SI (as that of `h` in cosmology, `Hdim`) is a `KeyError`. -/
theorem C122_key_error (u : Unit) (hu : u.WF) {k : Dim} (hk : u.exp k ≠ 0) (h : k ∉ siDims) : toAstropy u = .error .key := by
  have hn := wf_iff.mp hu
  have hm := mem_of_dget_ne hn.nodup hk
  have hbad : ∀ p, dimmap k p = .error .key := by
    intro p
    simp only [siDims, List.mem_cons, List.not_mem_nil, or_false, not_or] at h
    simp [dimmap, h]
  have hcase : ∀ d p, dimmap d p = .error .key ∨ ∃ a, dimmap d p = .ok a := by
    intro d p
    unfold dimmap
    split_ifs
    · exact Or.inr ⟨_, rfl⟩
    · exact Or.inr ⟨_, rfl⟩
    · exact Or.inr ⟨_, rfl⟩
    · exact Or.inr ⟨_, rfl⟩
    · exact Or.inr ⟨_, rfl⟩
    · exact Or.inl rfl
  have hall : ∀ (l : Dict) (a : AUnit), k ∈ keys l → mulAll l a = .error .key := by
    intro l
    induction l with
    | nil => intro a h; cases h
    | cons x l ih =>
      obtain ⟨d, p⟩ := x
      intro a hx
      unfold mulAll
      rcases hcase d p with h1 | ⟨b, h1⟩
      · rw [h1]; rfl
      · rw [h1]
        simp only [bind, Except.bind]
        rcases List.mem_cons.mp hx with e | hx
        · simp only at e
          subst e
          rw [hbad] at h1
          cases h1
        · exact ih _ hx
  obtain ⟨ds, v⟩ := u
  simp only [Unit.exp] at hm
  unfold toAstropy
  cases ds with
  | nil => cases hm
  | cons x l =>
    obtain ⟨d, p⟩ := x
    unfold baseToAstropy
    simp only
    rcases hcase d p with h1 | ⟨b, h1⟩
    · rw [h1]; rfl
    · rw [h1]
      simp only [bind, Except.bind]
      rcases List.mem_cons.mp hm with e | hx
      · have e' : k = d := congrArg Prod.fst e
        subst e'
        rw [hbad] at h1
        cases h1
      · rw [hall l b (List.mem_map_of_mem hx)]

/-- Non-vacuity: the joule. -/
example : toAstropy ⟨[("M", 1), ("L", 2), ("T", -2)], 1⟩ = .ok ⟨1, 2, -2, 1, 0, 0⟩ := by
  rw [C122_converts_partial _ ⟨by simp, by simp⟩ (by
      intro k hk
      by_contra hc
      simp only [siDims, List.mem_cons, List.not_mem_nil, or_false, not_or] at hc
      apply hk
      have h1 : (k == "L") = false := by simpa using hc.1
      have h2 : (k == "T") = false := by simpa using hc.2.1
      have h3 : (k == "M") = false := by simpa using hc.2.2.1
      simp [Unit.exp, dget, List.lookup_cons, h1, h2, h3]) ⟨"M", by simp [Unit.exp, dget]⟩]
  simp [asAstropy, Unit.exp, dget, List.lookup_cons]

end Verif.Units.Name
