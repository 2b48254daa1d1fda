import Verif.Units.NumModel
import Verif.Units.Props

/-! # C154: unit arithmetic with Python's numbers -/

namespace Verif.Units

open Verif.Round

variable (P : Plat)

/-! ### Lemmas -/

theorem Within.one : Within 0 1 := by simp [Within]

private theorem w_pos : (0 : ℝ) < 1 - (2 ^ 53)⁻¹ := by norm_num
private theorem w_le : (1 - (2 ^ 53)⁻¹ : ℝ) ≤ 1 := by norm_num

theorem Within.pos {K : ℕ} {t : ℝ} (h : Within K t) : 0 < t := lt_of_lt_of_le (pow_pos w_pos K) h.1

theorem Within.mono {K L : ℕ} {t : ℝ} (h : Within K t) (hKL : K ≤ L) : Within L t := by
  have h1 := pow_le_pow_of_le_one w_pos.le w_le hKL
  exact ⟨h1.trans h.1, (mul_le_mul_of_nonneg_left h1 h.pos.le).trans h.2⟩

theorem Within.mul {K L : ℕ} {s t : ℝ} (hs : Within K s) (ht : Within L t) : Within (K + L) (s * t) := by
  have a := pow_pos w_pos K
  have b := pow_pos w_pos L
  refine ⟨?_, ?_⟩
  · rw [pow_add]; exact mul_le_mul hs.1 ht.1 b.le hs.pos.le
  · rw [pow_add]
    calc s * t * ((1 - (2 ^ 53)⁻¹ : ℝ) ^ K * (1 - (2 ^ 53)⁻¹) ^ L)
        = (s * (1 - (2 ^ 53)⁻¹ : ℝ) ^ K) * (t * (1 - (2 ^ 53)⁻¹) ^ L) := by ring
      _ ≤ 1 := mul_le_one₀ hs.2 (mul_nonneg ht.pos.le b.le) ht.2

theorem Within.inv {K : ℕ} {t : ℝ} (h : Within K t) : Within K t⁻¹ := by
  have hp := h.pos
  refine ⟨?_, ?_⟩
  · rw [le_inv_comm₀ (pow_pos w_pos K) hp, ← one_div, le_div_iff₀ (pow_pos w_pos K)]; exact h.2
  · rw [inv_mul_le_iff₀ hp, mul_one]; exact h.1

theorem Within.pow {K : ℕ} {t : ℝ} (h : Within K t) (n : ℕ) : Within (n * K) (t ^ n) := by
  induction n with
  | zero => simpa using Within.one
  | succ n ih => rw [pow_succ, Nat.succ_mul]; exact ih.mul h

theorem Within.zpow {K : ℕ} {t : ℝ} (h : Within K t) (n : ℤ) : Within (n.natAbs * K) (t ^ n) := by
  obtain ⟨k, rfl | rfl⟩ := n.eq_nat_or_neg
  · simpa using h.pow k
  · simpa using (h.pow k).inv

theorem fl_within (x : ℝ) : ∃ t, Within 1 t ∧ P.fl x = x * t := by
  obtain ⟨δ, hδ, h⟩ := P.near.factor (by norm_num) x
  rw [abs_le] at hδ
  refine ⟨1 + δ, ⟨?_, ?_⟩, h⟩
  · rw [pow_one]; linarith [hδ.1]
  · rw [pow_one]
    have := hδ.2
    nlinarith [w_pos]

theorem pw_within (x : ℝ) (n : ℤ) : ∃ t, Within 3 t ∧ P.pw x n = x ^ n * t := by
  rcases eq_or_ne (x ^ n) 0 with h0 | h0
  · refine ⟨1, Within.one.mono (by norm_num), ?_⟩
    have := P.pw_near x n
    rw [h0] at this ⊢
    simp at this
    simpa using this
  · have hn := P.pw_near x n
    refine ⟨P.pw x n / x ^ n, ?_, by field_simp⟩
    have : |P.pw x n / x ^ n - 1| ≤ 1 / 2 ^ 52 := by
      rw [div_sub_one h0, abs_div, div_le_iff₀ (abs_pos.mpr h0)]
      linarith
    rw [abs_le] at this
    obtain ⟨h1, h2⟩ := this
    refine ⟨?_, ?_⟩
    · have : (1 - (2 ^ 53)⁻¹ : ℝ) ^ 3 ≤ 1 - 1 / 2 ^ 52 := by norm_num
      linarith
    · have h3 : P.pw x n / x ^ n ≤ 1 + 1 / 2 ^ 52 := by linarith
      refine (mul_le_mul_of_nonneg_right h3 (pow_nonneg w_pos.le 3)).trans ?_
      norm_num

theorem toFloat_within (a : Num) : ∃ t, Within 1 t ∧ a.toFloat P = a.val * t := by
  cases a with
  | int n => exact fl_within P _
  | frac q => exact fl_within P _
  | flt x => exact ⟨1, Within.one.mono (by norm_num), by simp [Num.toFloat, Num.val]⟩

theorem mul_within (a b : Num) : ∃ t, Within 3 t ∧ (a.mul P b).val = a.val * b.val * t := by
  have key : ∃ t, Within 3 t ∧ P.fl (a.toFloat P * b.toFloat P) = a.val * b.val * t := by
    obtain ⟨s, hs, es⟩ := toFloat_within P a
    obtain ⟨t, ht, et⟩ := toFloat_within P b
    obtain ⟨r, hr, er⟩ := fl_within P (a.toFloat P * b.toFloat P)
    refine ⟨s * t * r, (hs.mul ht).mul hr, ?_⟩
    rw [er, es, et]; ring
  have ex : ∀ c : ℝ, c = a.val * b.val → ∃ t, Within 3 t ∧ c = a.val * b.val * t := fun c h =>
    ⟨1, Within.one.mono (by norm_num), by rw [h, mul_one]⟩
  cases a <;> cases b
  case int.int => exact ex _ (by simp [Num.mul, Num.val])
  case int.frac => exact ex _ (by simp [Num.mul, Num.val])
  case frac.int => exact ex _ (by simp [Num.mul, Num.val])
  case frac.frac => exact ex _ (by simp [Num.mul, Num.val])
  all_goals exact key

theorem div_within (a b : Num) (hb : b.val ≠ 0) :
    ∃ c t, a.div P b = .ok c ∧ Within 3 t ∧ c.val = a.val / b.val * t := by
  have key : ∃ t, Within 3 t ∧ P.fl (a.toFloat P / b.toFloat P) = a.val / b.val * t := by
    obtain ⟨s, hs, es⟩ := toFloat_within P a
    obtain ⟨t, ht, et⟩ := toFloat_within P b
    obtain ⟨r, hr, er⟩ := fl_within P (a.toFloat P / b.toFloat P)
    refine ⟨s * t⁻¹ * r, (hs.mul ht.inv).mul hr, ?_⟩
    rw [er, es, et, div_eq_mul_inv, mul_inv, div_eq_mul_inv]; ring
  have ex : ∀ c : ℝ, c = a.val / b.val → Within 3 1 ∧ c = a.val / b.val * 1 := fun c h =>
    ⟨Within.one.mono (by norm_num), by rw [h, mul_one]⟩
  unfold Num.div
  rw [if_neg hb]
  cases a <;> cases b
  case int.int a b =>
    obtain ⟨t, ht, et⟩ := fl_within P ((a : ℝ) / b)
    exact ⟨_, t, rfl, ht.mono (by norm_num), et⟩
  case int.frac => exact ⟨_, 1, rfl, ex _ (by simp [Num.val])⟩
  case frac.int => exact ⟨_, 1, rfl, ex _ (by simp [Num.val])⟩
  case frac.frac => exact ⟨_, 1, rfl, ex _ (by simp [Num.val])⟩
  all_goals
    obtain ⟨t, ht, et⟩ := key
    exact ⟨_, t, rfl, ht, et⟩

theorem pow_within (a : Num) (n : ℤ) (h : ¬ (a.val = 0 ∧ n < 0)) :
    ∃ c t, a.pow P n = .ok c ∧ Within (n.natAbs + 3) t ∧ c.val = a.val ^ n * t := by
  unfold Num.pow
  rw [if_neg h]
  cases a with
  | int a =>
    by_cases hn : 0 ≤ n
    · refine ⟨.int (a ^ n.toNat), 1, by simp [hn], Within.one.mono (by omega), ?_⟩
      obtain ⟨k, rfl⟩ := Int.eq_ofNat_of_zero_le hn
      simp [Num.val]
    · obtain ⟨s, hs, es⟩ := fl_within P (a : ℝ)
      obtain ⟨t, ht, et⟩ := pw_within P (P.fl a) n
      refine ⟨.flt (P.pw (P.fl a) n), s ^ n * t, by simp [hn], ?_, ?_⟩
      · simpa using (hs.zpow n).mul ht
      · change P.pw (P.fl a) n = (a : ℝ) ^ n * _
        rw [et, es, mul_zpow]; ring
  | frac q => exact ⟨_, 1, rfl, Within.one.mono (by omega), by simp [Num.val]⟩
  | flt x =>
    obtain ⟨t, ht, et⟩ := pw_within P x n
    exact ⟨_, t, rfl, ht.mono (by omega), et⟩

/-- What it means that a computation with Python's numbers agrees with one over the reals, up to `K`
roundings. -/
def Agrees (K : ℕ) (r : Except Err NUnit) (s : Except Err Unit) : Prop :=
  match s with
  | .error e => r = .error e
  | .ok u => ∃ w t, r = .ok w ∧ w.dims = u.dims ∧ Within K t ∧ w.value.val = u.value * t

theorem agrees_mul {K L : ℕ} (σ : SetOrder) {w v : NUnit} {u z : Unit} {s t : ℝ} (hw : w.dims = u.dims)
    (hs : Within K s) (es : w.value.val = u.value * s) (hv : v.dims = z.dims) (ht : Within L t)
    (et : v.value.val = z.value * t) : ∃ r, Within (K + L + 3) r ∧
      (w.mul P σ v).dims = (u.mul σ z).dims ∧ (w.mul P σ v).value.val = (u.mul σ z).value * r := by
  obtain ⟨r, hr, er⟩ := mul_within P w.value v.value
  refine ⟨s * t * r, (hs.mul ht).mul hr, by simp [NUnit.mul, Unit.mul, hw, hv], ?_⟩
  simp only [NUnit.mul, Unit.mul, er, es, et]; ring

theorem agrees_mulNum {K L : ℕ} {w : NUnit} {x : Num} {u : Unit} {y s t : ℝ} (hw : w.dims = u.dims)
    (hs : Within K s) (es : w.value.val = u.value * s) (ht : Within L t) (et : x.val = y * t) :
    ∃ r, Within (K + L + 3) r ∧
      (w.mulNum P x).dims = (u.mulReal y).dims ∧ (w.mulNum P x).value.val = (u.mulReal y).value * r := by
  obtain ⟨r, hr, er⟩ := mul_within P w.value x
  refine ⟨s * t * r, (hs.mul ht).mul hr, by simp [NUnit.mulNum, Unit.mulReal, hw], ?_⟩
  simp only [NUnit.mulNum, Unit.mulReal, er, es, et]; ring

theorem zero_iff {K : ℕ} {a b t : ℝ} (ht : Within K t) (e : a = b * t) : a = 0 ↔ b = 0 := by
  rw [e, mul_eq_zero, or_iff_left ht.pos.ne']

theorem agrees_inv {K : ℕ} {w : NUnit} {u : Unit} {s : ℝ} (hw : w.dims = u.dims)
    (hs : Within K s) (es : w.value.val = u.value * s) : Agrees (K + 3) (w.inv P) u.inv := by
  unfold Unit.inv
  by_cases h0 : u.value = 0
  · rw [if_pos h0]
    simp [Agrees, NUnit.inv, Num.div, (zero_iff hs es).mpr h0]
  · rw [if_neg h0]
    obtain ⟨c, t, hc, ht, et⟩ := div_within P (.int 1) w.value (fun h => h0 ((zero_iff hs es).mp h))
    refine ⟨⟨dinv w.dims, c⟩, s⁻¹ * t, ?_, by simp [hw], hs.inv.mul ht, ?_⟩
    · simp [NUnit.inv, hc]
    · have e1 : (Num.int 1).val = 1 := by simp [Num.val]
      simp only [et, es, e1, one_div, mul_inv]; ring

theorem pyPow_int (x : ℝ) (n : ℤ) (h : ¬ (x = 0 ∧ n < 0)) : pyPow x n = .ok (x ^ n) := by
  unfold pyPow
  rw [if_neg (by simpa using h), if_neg (by simp)]
  rw [show (((n : ℚ) : ℝ)) = (n : ℝ) by push_cast; rfl, Real.rpow_intCast]

theorem pyPow_int_err (x : ℝ) (n : ℤ) (h : x = 0 ∧ n < 0) : pyPow x n = .error .zeroDivision := by
  unfold pyPow
  rw [if_pos (by simpa using h)]

theorem agrees_pow {K : ℕ} {w : NUnit} {u : Unit} {s : ℝ} (n : ℤ) (hw : w.dims = u.dims)
    (hs : Within K s) (es : w.value.val = u.value * s) :
    Agrees (n.natAbs * (K + 1) + 3) (w.pow P n) (u.pow n) := by
  unfold Unit.pow
  by_cases h0 : u.value = 0 ∧ n < 0
  · rw [pyPow_int_err _ _ h0]
    simp [Agrees, NUnit.pow, Num.pow, (zero_iff hs es).mpr h0.1, h0.2]
  · rw [pyPow_int _ _ h0]
    obtain ⟨c, t, hc, ht, et⟩ := pow_within P w.value n (fun h => h0 ⟨(zero_iff hs es).mp h.1, h.2⟩)
    refine ⟨⟨dpow w.dims n, c⟩, s ^ n * t, ?_, by simp [hw], ?_, ?_⟩
    · simp [NUnit.pow, hc]
    · refine ((hs.zpow n).mul ht).mono (le_of_eq ?_); ring
    · simp only [et, es, mul_zpow]; ring

/-! ### Statements -/

/-- **C154** (partial: up to roundings).  Whatever types the numbers have, an expression that computes a
unit raises exactly when, and with the error with which, it does over the reals, and otherwise gives the
same dimensions and a value that differs from the exact one by at most `e.cost` roundings. -/
theorem C154_rounding_partial (e : NExpr) : Agrees e.cost (e.eval P) e.ideal.eval := by
  induction e with
  | lit items v => exact ⟨_, 1, rfl, rfl, Within.one, by simp [NUnit.mk', Unit.mk']⟩
  | mul σ a b iha ihb =>
    simp only [NExpr.eval, NExpr.ideal, UExpr.eval, NExpr.cost]
    unfold Agrees at iha ihb
    cases ha : a.ideal.eval with
    | error x => rw [ha] at iha; rw [iha]; rfl
    | ok u =>
      rw [ha] at iha
      obtain ⟨w, s, hw, dw, hs, es⟩ := iha
      rw [hw]
      cases hb : b.ideal.eval with
      | error x => rw [hb] at ihb; rw [ihb]; rfl
      | ok z =>
        rw [hb] at ihb
        obtain ⟨v, t, hv, dv, ht, et⟩ := ihb
        rw [hv]
        obtain ⟨r, hr, h1, h2⟩ := agrees_mul P σ dw hs es dv ht et
        exact ⟨_, r, rfl, h1, hr, h2⟩
  | mulNum a x iha =>
    simp only [NExpr.eval, NExpr.ideal, UExpr.eval, NExpr.cost]
    unfold Agrees at iha
    cases ha : a.ideal.eval with
    | error x => rw [ha] at iha; rw [iha]; rfl
    | ok u =>
      rw [ha] at iha
      obtain ⟨w, s, hw, dw, hs, es⟩ := iha
      rw [hw]
      obtain ⟨r, hr, h1, h2⟩ := agrees_mulNum P (x := x) (y := x.val) dw hs es Within.one (by simp)
      exact ⟨_, r, rfl, h1, hr, h2⟩
  | inv a iha =>
    simp only [NExpr.eval, NExpr.ideal, UExpr.eval, NExpr.cost]
    unfold Agrees at iha
    cases ha : a.ideal.eval with
    | error x => rw [ha] at iha; rw [iha]; rfl
    | ok u =>
      rw [ha] at iha
      obtain ⟨w, s, hw, dw, hs, es⟩ := iha
      rw [hw]
      exact agrees_inv P dw hs es
  | pow a n iha =>
    simp only [NExpr.eval, NExpr.ideal, UExpr.eval, NExpr.cost]
    unfold Agrees at iha
    cases ha : a.ideal.eval with
    | error x => rw [ha] at iha; rw [iha]; rfl
    | ok u =>
      rw [ha] at iha
      obtain ⟨w, s, hw, dw, hs, es⟩ := iha
      rw [hw]
      exact agrees_pow P n dw hs es
  | div σ a b iha ihb =>
    simp only [NExpr.eval, NExpr.ideal, UExpr.eval, NExpr.cost]
    unfold Agrees at iha ihb
    cases ha : a.ideal.eval with
    | error x => rw [ha] at iha; rw [iha]; rfl
    | ok u =>
      rw [ha] at iha
      obtain ⟨w, s, hw, dw, hs, es⟩ := iha
      rw [hw]
      cases hb : b.ideal.eval with
      | error x => rw [hb] at ihb; rw [ihb]; rfl
      | ok z =>
        rw [hb] at ihb
        obtain ⟨v, t, hv, dv, ht, et⟩ := ihb
        rw [hv]
        have hp := agrees_pow P (-1) dv ht et
        unfold Agrees at hp
        simp only [bind, Except.bind, Unit.div, NUnit.div]
        push_cast at hp
        cases hz : z.pow (-1) with
        | error x => rw [hz] at hp; simp only [] at hp; rw [hp]; rfl
        | ok y =>
          rw [hz] at hp
          obtain ⟨v', t', hv', dv', ht', et'⟩ := hp
          rw [hv']
          obtain ⟨r, hr, h1, h2⟩ := agrees_mul P σ dw hs es dv' ht' et'
          exact ⟨_, r, rfl, h1, hr.mono (by simp; omega), h2⟩
  | divNum a x iha =>
    simp only [NExpr.eval, NExpr.ideal, UExpr.eval, NExpr.cost]
    unfold Agrees at iha
    cases ha : a.ideal.eval with
    | error x => rw [ha] at iha; rw [iha]; rfl
    | ok u =>
      rw [ha] at iha
      obtain ⟨w, s, hw, dw, hs, es⟩ := iha
      rw [hw]
      simp only [bind, Except.bind, Unit.divReal, NUnit.divNum]
      by_cases h0 : x.val = 0
      · have h1 := pyPow_int_err x.val (-1) ⟨h0, by norm_num⟩
        push_cast at h1
        rw [h1]
        simp [Num.pow, h0, Agrees]
      · have h1 := pyPow_int x.val (-1) (fun h => h0 h.1)
        push_cast at h1
        rw [h1]
        obtain ⟨c, t, hc, ht, et⟩ := pow_within P x (-1) (fun h => h0 h.1)
        rw [hc]
        obtain ⟨r, hr, h1, h2⟩ := agrees_mulNum P dw hs es ht et
        exact ⟨_, r, rfl, h1, hr.mono (by simp), h2⟩
  | rdivNum a x iha =>
    simp only [NExpr.eval, NExpr.ideal, UExpr.eval, NExpr.cost]
    unfold Agrees at iha
    cases ha : a.ideal.eval with
    | error x => rw [ha] at iha; rw [iha]; rfl
    | ok u =>
      rw [ha] at iha
      obtain ⟨w, s, hw, dw, hs, es⟩ := iha
      rw [hw]
      simp only [bind, Except.bind, Unit.rdivReal, NUnit.rdivNum]
      have hp := agrees_inv P dw hs es
      unfold Agrees at hp
      cases hz : u.inv with
      | error x => rw [hz] at hp; simp only [] at hp; rw [hp]; rfl
      | ok y =>
        rw [hz] at hp
        obtain ⟨v', t', hv', dv', ht', et'⟩ := hp
        rw [hv']
        obtain ⟨r, hr, h1, h2⟩ := agrees_mulNum P (x := x) (y := x.val) dv' ht' et' Within.one (by simp)
        exact ⟨_, r, rfl, h1, hr, h2⟩

/-- The value of `u` is the `Fraction` with the given value. -/
def FracOf (r : Except Err NUnit) (s : Except Err Unit) : Prop :=
  match s with
  | .error e => r = .error e
  | .ok u => ∃ q : ℚ, r = .ok ⟨u.dims, .frac q⟩ ∧ u.value = q

theorem fracOf_pow (d : Dict) (q : ℚ) (n : ℤ) :
    FracOf ((⟨d, .frac q⟩ : NUnit).pow P n) ((⟨d, q⟩ : Unit).pow n) := by
  unfold Unit.pow
  by_cases h0 : (q : ℝ) = 0 ∧ n < 0
  · rw [pyPow_int_err _ _ h0]
    simp [FracOf, NUnit.pow, Num.pow, Num.val, h0]
  · rw [pyPow_int _ _ h0]
    refine ⟨q ^ n, ?_, by simp⟩
    have : (Num.frac q).pow P n = .ok (.frac (q ^ n)) := if_neg h0
    simp [NUnit.pow, this]

theorem fracOf_inv (d : Dict) (q : ℚ) :
    FracOf ((⟨d, .frac q⟩ : NUnit).inv P) ((⟨d, q⟩ : Unit).inv) := by
  unfold Unit.inv
  by_cases h0 : (q : ℝ) = 0
  · rw [if_pos h0]
    have : (Num.int 1).div P (.frac q) = .error .zeroDivision := if_pos h0
    simp [FracOf, NUnit.inv, this]
  · rw [if_neg h0]
    refine ⟨1 / q, ?_, by simp⟩
    have : (Num.int 1).div P (.frac q) = .ok (.frac ((1 : ℤ) / q)) := if_neg h0
    simp [NUnit.inv, this]

theorem mul_rat (q : ℚ) (x : Num) (hx : x.IsRat) : ∃ r : ℚ, (Num.frac q).mul P x = .frac r ∧ (q : ℝ) * x.val = r := by
  cases x with
  | int n => exact ⟨q * n, rfl, by simp [Num.val]⟩
  | frac p => exact ⟨q * p, rfl, by simp [Num.val]⟩
  | flt x => exact absurd hx id

theorem fracOf_mulNum (d : Dict) (q : ℚ) (x : Num) (hx : x.IsRat) :
    FracOf (.ok ((⟨d, .frac q⟩ : NUnit).mulNum P x)) (.ok ((⟨d, q⟩ : Unit).mulReal x.val)) := by
  obtain ⟨r, h1, h2⟩ := mul_rat P q x hx
  exact ⟨r, by simp [NUnit.mulNum, Unit.mulReal, h1], by simp [Unit.mulReal, h2]⟩

/-- **C154** (partial: for Fractions).  If all units start from `Fraction`s and units are divided by
`Fraction`s or units only, the result is exact: the `Fraction` of rational arithmetic, on every platform. -/
theorem C154_fraction_exact_partial (e : NExpr) (he : e.Fractional) : FracOf (e.eval P) e.ideal.eval := by
  induction e with
  | lit items v =>
    cases v with
    | frac q => exact ⟨q, rfl, by simp [Unit.mk', Num.val]⟩
    | int n => exact absurd he id
    | flt x => exact absurd he id
  | mul σ a b iha ihb =>
    replace iha := iha he.1
    replace ihb := ihb he.2
    simp only [NExpr.eval, NExpr.ideal, UExpr.eval]
    unfold FracOf at iha ihb
    cases ha : a.ideal.eval with
    | error x => rw [ha] at iha; rw [iha]; rfl
    | ok u =>
      rw [ha] at iha
      obtain ⟨q, hq, eq⟩ := iha
      rw [hq]
      cases hb : b.ideal.eval with
      | error x => rw [hb] at ihb; rw [ihb]; rfl
      | ok z =>
        rw [hb] at ihb
        obtain ⟨r, hr, er⟩ := ihb
        rw [hr]
        exact ⟨q * r, rfl, by simp [Unit.mul, eq, er]⟩
  | mulNum a x iha =>
    replace iha := iha he.1
    simp only [NExpr.eval, NExpr.ideal, UExpr.eval]
    unfold FracOf at iha
    cases ha : a.ideal.eval with
    | error x => rw [ha] at iha; rw [iha]; rfl
    | ok u =>
      rw [ha] at iha
      obtain ⟨q, hq, eq⟩ := iha
      obtain ⟨d, v⟩ := u
      subst eq
      rw [hq]
      exact fracOf_mulNum P _ _ _ he.2
  | inv a iha =>
    replace iha := iha he
    simp only [NExpr.eval, NExpr.ideal, UExpr.eval]
    unfold FracOf at iha
    cases ha : a.ideal.eval with
    | error x => rw [ha] at iha; rw [iha]; rfl
    | ok u =>
      rw [ha] at iha
      obtain ⟨q, hq, eq⟩ := iha
      obtain ⟨d, v⟩ := u
      subst eq
      rw [hq]
      exact fracOf_inv P _ _
  | pow a n iha =>
    replace iha := iha he
    simp only [NExpr.eval, NExpr.ideal, UExpr.eval]
    unfold FracOf at iha
    cases ha : a.ideal.eval with
    | error x => rw [ha] at iha; rw [iha]; rfl
    | ok u =>
      rw [ha] at iha
      obtain ⟨q, hq, eq⟩ := iha
      obtain ⟨d, v⟩ := u
      subst eq
      rw [hq]
      exact fracOf_pow P _ _ _
  | div σ a b iha ihb =>
    replace iha := iha he.1
    replace ihb := ihb he.2
    simp only [NExpr.eval, NExpr.ideal, UExpr.eval]
    unfold FracOf at iha ihb
    cases ha : a.ideal.eval with
    | error x => rw [ha] at iha; rw [iha]; rfl
    | ok u =>
      rw [ha] at iha
      obtain ⟨q, hq, eq⟩ := iha
      rw [hq]
      cases hb : b.ideal.eval with
      | error x => rw [hb] at ihb; rw [ihb]; rfl
      | ok z =>
        rw [hb] at ihb
        obtain ⟨r, hr, er⟩ := ihb
        obtain ⟨d, v⟩ := z
        subst er
        rw [hr]
        have hp := fracOf_pow P d r (-1)
        unfold FracOf at hp
        simp only [bind, Except.bind, Unit.div, NUnit.div]
        push_cast at hp
        cases hz : (⟨d, r⟩ : Unit).pow (-1) with
        | error x => rw [hz] at hp; simp only [] at hp; rw [hp]; rfl
        | ok y =>
          rw [hz] at hp
          obtain ⟨p, hp, ep⟩ := hp
          rw [hp]
          exact ⟨q * p, rfl, by simp [Unit.mul, eq, ep]⟩
  | divNum a x iha =>
    replace iha := iha he.1
    simp only [NExpr.eval, NExpr.ideal, UExpr.eval]
    unfold FracOf at iha
    cases ha : a.ideal.eval with
    | error x => rw [ha] at iha; rw [iha]; rfl
    | ok u =>
      rw [ha] at iha
      obtain ⟨q, hq, eq⟩ := iha
      rw [hq]
      have hx := he.2
      cases x with
      | int n => exact absurd hx id
      | flt x => exact absurd hx id
      | frac r =>
        simp only [bind, Except.bind, Unit.divReal, NUnit.divNum, Num.val]
        by_cases h0 : (r : ℝ) = 0
        · have h1 := pyPow_int_err (r : ℝ) (-1) ⟨h0, by norm_num⟩
          push_cast at h1
          rw [h1]
          simp [Num.pow, Num.val, h0, FracOf]
        · have h1 := pyPow_int (r : ℝ) (-1) (fun h => h0 h.1)
          push_cast at h1
          rw [h1]
          refine ⟨q * r ^ (-1 : ℤ), ?_, by simp [Unit.mulReal, eq]⟩
          simp [Num.pow, Num.val, h0]
          simp [NUnit.mulNum, Unit.mulReal, Num.mul]; rfl
  | rdivNum a x iha =>
    replace iha := iha he.1
    simp only [NExpr.eval, NExpr.ideal, UExpr.eval]
    unfold FracOf at iha
    cases ha : a.ideal.eval with
    | error x => rw [ha] at iha; rw [iha]; rfl
    | ok u =>
      rw [ha] at iha
      obtain ⟨q, hq, eq⟩ := iha
      obtain ⟨d, v⟩ := u
      subst eq
      rw [hq]
      simp only [bind, Except.bind, Unit.rdivReal, NUnit.rdivNum]
      have hp := fracOf_inv P d q
      unfold FracOf at hp
      cases hz : (⟨d, q⟩ : Unit).inv with
      | error x => rw [hz] at hp; simp only [] at hp; rw [hp]; rfl
      | ok y =>
        rw [hz] at hp
        obtain ⟨p, hp, ep⟩ := hp
        obtain ⟨d', v'⟩ := y
        subst ep
        rw [hp]
        exact fracOf_mulNum P _ _ _ he.2

/-- **C154** (partial: for Fractions): laws of the exact model (C02, C03) hold with `==` in Python. -/
theorem C154_fraction_laws_partial (e e' : NExpr) (he : e.Fractional) (he' : e'.Fractional) (u u' : Unit)
    (h : e.ideal.eval = .ok u) (h' : e'.ideal.eval = .ok u') :
    ∃ w w', e.eval P = .ok w ∧ e'.eval P = .ok w' ∧ w.eq w' = u.eq u' := by
  have a := C154_fraction_exact_partial P e he
  have b := C154_fraction_exact_partial P e' he'
  rw [h] at a
  rw [h'] at b
  obtain ⟨q, hq, eq⟩ := a
  obtain ⟨r, hr, er⟩ := b
  exact ⟨_, _, hq, hr, by simp [NUnit.eq, Unit.eq, Num.val, eq, er]⟩

/-! ### Multiplication and conversion, any types -/

theorem mul_comm_num (a b : Num) : a.mul P b = b.mul P a := by
  cases a <;> cases b <;> simp [Num.mul, mul_comm]

/-- Multiplication of units commutes exactly, whatever the types. -/
theorem C154_mul_comm_partial (σ σ' : SetOrder) (u v : NUnit) : (u.mul P σ v).eq (v.mul P σ' u) = true := by
  have h := C02_mul_comm σ σ' u.toUnit v.toUnit
  unfold Unit.eq at h
  unfold NUnit.eq
  rw [Bool.and_eq_true] at h ⊢
  exact ⟨by simp [NUnit.mul, mul_comm_num P u.value v.value], h.2⟩

/-- `Unit.to` raises TypeError iff the dimensions differ, ZeroDivisionError iff they are equal and the other value is
zero, and otherwise gives a `float`: the quotient up to four roundings, correctly rounded if neither value is a `float`. -/
theorem C154_to_partial (u v : NUnit) (hu : u.toUnit.WF) (hv : v.toUnit.WF) :
    (u.to P v = .error .typeError ↔ ∃ k, u.toUnit.exp k ≠ v.toUnit.exp k) ∧
    (u.to P v = .error .zeroDivision ↔ (∀ k, u.toUnit.exp k = v.toUnit.exp k) ∧ v.value.val = 0) ∧
    ((∀ k, u.toUnit.exp k = v.toUnit.exp k) → v.value.val ≠ 0 →
      ∃ f t, u.to P v = .ok f ∧ Within 4 t ∧ f = u.value.val / v.value.val * t ∧
        (u.value.IsRat → v.value.IsRat → f = P.fl (u.value.val / v.value.val))) := by
  have hd : dictEq u.dims v.dims = true ↔ ∀ k, u.toUnit.exp k = v.toUnit.exp k :=
    dictEq_iff (wf_iff.mp hu) (wf_iff.mp hv)
  by_cases h : ∀ k, u.toUnit.exp k = v.toUnit.exp k
  · have h1 := hd.mpr h
    by_cases h0 : v.value.val = 0
    · have : u.to P v = .error .zeroDivision := by simp [NUnit.to, h1, Num.div, h0]
      rw [this]
      refine ⟨⟨(fun x => by cases x), fun ⟨k, hk⟩ => absurd (h k) hk⟩, ⟨fun _ => ⟨h, h0⟩, fun _ => rfl⟩,
        fun _ h' => absurd h0 h'⟩
    · obtain ⟨c, t, hc, ht, et⟩ := div_within P u.value v.value h0
      obtain ⟨s, hs, es⟩ := toFloat_within P c
      have : u.to P v = .ok (c.toFloat P) := by simp [NUnit.to, h1, hc]
      rw [this]
      refine ⟨⟨(fun x => by cases x), fun ⟨k, hk⟩ => absurd (h k) hk⟩,
        ⟨(fun x => by cases x), fun x => absurd x.2 h0⟩, fun _ _ => ⟨_, t * s, rfl, ht.mul hs, ?_, ?_⟩⟩
      · rw [es, et]; ring
      · intro ru rv
        unfold Num.div at hc
        rw [if_neg h0] at hc
        cases hu' : u.value with
        | flt x => rw [hu'] at ru; exact absurd ru id
        | int a =>
          cases hv' : v.value with
          | flt x => rw [hv'] at rv; exact absurd rv id
          | int b => rw [hu', hv'] at hc; cases hc; rfl
          | frac b => rw [hu', hv'] at hc; cases hc; simp [Num.toFloat, Num.val]
        | frac a =>
          cases hv' : v.value with
          | flt x => rw [hv'] at rv; exact absurd rv id
          | int b => rw [hu', hv'] at hc; cases hc; simp [Num.toFloat, Num.val]
          | frac b => rw [hu', hv'] at hc; cases hc; simp [Num.toFloat, Num.val]
  · have h1 : dictEq u.dims v.dims = false := by
      rw [← Bool.not_eq_true, hd]; exact h
    have : u.to P v = .error .typeError := by simp [NUnit.to, h1]
    rw [this]
    refine ⟨⟨fun _ => by push Not at h; exact h, fun _ => rfl⟩, ⟨(fun x => by cases x), fun x => absurd x.1 h⟩,
      fun x => absurd x h⟩

/-- `u.to(u) == 1` exactly, whatever the type of the value. -/
theorem C154_to_self_partial (u : NUnit) (hu : u.toUnit.WF) (h0 : u.value.val ≠ 0) : u.to P u = .ok 1 := by
  have h1 : dictEq u.dims u.dims = true := (dictEq_iff (wf_iff.mp hu) (wf_iff.mp hu)).mpr fun _ => rfl
  have hf : P.fl 1 = 1 := P.near.self (isFl_one (by norm_num))
  obtain ⟨d, v⟩ := u
  simp only [] at h1 h0
  cases v with
  | int n =>
    simp only [Num.val] at h0
    simp [NUnit.to, h1, Num.div, Num.val, h0, Num.toFloat, hf]
  | frac q =>
    simp only [Num.val] at h0
    have h0' : q ≠ 0 := by simpa using h0
    simp [NUnit.to, h1, Num.div, Num.val, h0', Num.toFloat, hf]
  | flt x =>
    simp only [Num.val] at h0
    simp [NUnit.to, h1, Num.div, Num.val, h0, Num.toFloat, hf]

/-! ### Where exactness fails -/

theorem isFl_inv_int {n : ℤ} (hn : n ≠ 0) (h : IsFl 53 ((n : ℝ)⁻¹)) : ∃ k : ℕ, |n| = 2 ^ k := by
  obtain ⟨m, e, -, he⟩ := h
  have hn' : (n : ℝ) ≠ 0 := by exact_mod_cast hn
  have h1 : (1 : ℝ) = n * m * 2 ^ e := by
    rw [mul_assoc, ← he, mul_inv_cancel₀ hn']
  obtain ⟨j, rfl | rfl⟩ := e.eq_nat_or_neg
  · have h2 : (1 : ℤ) = n * (m * 2 ^ j) := by
      have : (1 : ℝ) = n * (m * 2 ^ j) := by rw [h1, zpow_natCast]; ring
      exact_mod_cast this
    refine ⟨0, ?_⟩
    have : IsUnit n := .of_mul_eq_one _ h2.symm
    rw [pow_zero]; exact Int.isUnit_iff_abs_eq.mp this
  · have h2 : (2 : ℤ) ^ j = n * m := by
      have : (2 : ℝ) ^ j = n * m := by
        rw [zpow_neg, zpow_natCast] at h1
        field_simp at h1
        linarith
      exact_mod_cast this
    have h3 : n.natAbs ∣ 2 ^ j := by
      have : n ∣ 2 ^ j := ⟨m, h2⟩
      have := Int.natAbs_dvd_natAbs.mpr this
      simpa using this
    obtain ⟨k, -, hk⟩ := (Nat.dvd_prime_pow Nat.prime_two).mp h3
    exact ⟨k, by rw [Int.abs_eq_natAbs, hk]; push_cast; rfl⟩

/-- Dividing a unit of value `Fraction(1)` by an `int` `n` gives the unit times `Fraction(1, n)` exactly if `n` is plus or
minus a power of two, and for no other `n`, on every platform. -/
theorem C154_div_int_iff (d : Dict) (hd : Normal d) (n : ℤ) (hn : n ≠ 0) :
    ∃ w, (⟨d, .frac 1⟩ : NUnit).divNum P (.int n) = .ok w ∧
      (w.eq ((⟨d, .frac 1⟩ : NUnit).mulNum P (.frac (1 / n))) = true ↔ ∃ k : ℕ, |n| = 2 ^ k) := by
  have hn' : (n : ℝ) ≠ 0 := by exact_mod_cast hn
  have hf : P.fl 1 = 1 := P.near.self (isFl_one (by norm_num))
  refine ⟨⟨mkDims d, .flt (P.pw (P.fl n) (-1))⟩, ?_, ?_⟩
  · simp [NUnit.divNum, Num.pow, Num.val, hn, NUnit.mulNum, Num.mul, Num.toFloat, hf, P.near.self (P.pw_mem _ _)]
  · have h1 : dictEq (mkDims d) (mkDims d) = true :=
      (dictEq_iff (mkDims_normal d) (mkDims_normal d)).mpr fun _ => rfl
    have : (⟨mkDims d, .flt (P.pw (P.fl n) (-1))⟩ : NUnit).eq ((⟨d, .frac 1⟩ : NUnit).mulNum P (.frac (1 / n))) = true ↔
        P.pw (P.fl n) (-1) = (n : ℝ)⁻¹ := by
      simp [NUnit.eq, NUnit.mulNum, Num.mul, Num.val, h1]
    rw [this]
    constructor
    · intro h
      exact isFl_inv_int hn (h ▸ P.pw_mem _ _)
    · rintro ⟨k, hk⟩
      have key : IsFl 53 (n : ℝ) ∧ IsFl 53 (n : ℝ)⁻¹ := by
        rcases abs_eq (pow_nonneg (by norm_num : (0 : ℤ) ≤ 2) k) |>.mp hk with rfl | rfl
        · refine ⟨?_, ?_⟩
          · simpa using isFl_two_zpow (p := 53) (by norm_num) (k : ℤ)
          · simpa using isFl_two_zpow (p := 53) (by norm_num) (-(k : ℤ))
        · refine ⟨?_, ?_⟩
          · simpa using isFl_neg (isFl_two_zpow (p := 53) (by norm_num) (k : ℤ))
          · simpa [inv_neg] using isFl_neg (isFl_two_zpow (p := 53) (by norm_num) (-(k : ℤ)))
      rw [P.near.self key.1, P.pw_exact _ _ (by simpa using key.2)]
      simp

/-- Correctly rounded arithmetic, as an instance of `Plat`. -/
noncomputable def platRnd : Plat where
  fl := rnd 53
  near := nearest_rnd (by norm_num)
  pw x n := rnd 53 (x ^ n)
  pw_mem _ _ := (nearest_rnd (by norm_num)).mem _
  pw_exact _ _ h := (nearest_rnd (by norm_num)).self h
  pw_near x n := by
    refine ((nearest_rnd (p := 53) (by norm_num)).error (by norm_num) _).trans ?_
    have := abs_nonneg (x ^ n)
    rw [div_le_div_iff₀ (by positivity) (by positivity)]
    nlinarith

/-- A unit of length. -/
def exM : NUnit := NUnit.mk' [("L", 1)] (.frac 1)

/-- `m / 1000 == milli_(m)` is False, and so for every unit of value `Fraction(1)`: the claim fails although
only an `int` and `Fraction`s are involved. -/
theorem C154_exact_fails (d : Dict) (hd : Normal d) :
    ∃ w, (⟨d, .frac 1⟩ : NUnit).divNum P (.int 1000) = .ok w ∧
      w.eq ((⟨d, .frac 1⟩ : NUnit).mulNum P (.frac (1 / 1000))) = false := by
  obtain ⟨w, hw, h⟩ := C154_div_int_iff P d hd 1000 (by norm_num)
  refine ⟨w, hw, ?_⟩
  rw [← Bool.not_eq_true]
  intro h'
  obtain ⟨k, hk⟩ := h.mp (by rw [show ((1000 : ℤ) : ℚ) = 1000 by norm_num]; exact h')
  have h3 : (1000 : ℕ) = 2 ^ k := by
    have : ((1000 : ℕ) : ℤ) = ((2 ^ k : ℕ) : ℤ) := by push_cast; rw [← hk]; norm_num
    exact_mod_cast this
  have h5 : (5 : ℕ) ∣ 2 ^ k := h3 ▸ (by norm_num)
  have := (Nat.Prime.dvd_of_dvd_pow Nat.prime_five h5)
  norm_num at this

/-- The double nearest to `1/49`. -/
theorem fl_49 : 49 * P.fl (1 / 49) = 1 - 23 / 2 ^ 58 := fl_inv_49 P.near

/-- `49.0 * (1/49.0)` is not `1.0`. -/
theorem fl_49_mul : P.fl (49 * P.fl (1 / 49)) ≠ 1 := by
  intro h
  have h1 := P.near.near (49 * P.fl (1 / 49)) (((2 ^ 53 - 1 : ℤ) : ℝ) * 2 ^ (-53 : ℤ)) ⟨2 ^ 53 - 1, -53, by norm_num, rfl⟩
  rw [h, fl_49, zpow_neg] at h1
  push_cast at h1
  rw [abs_of_pos (by norm_num), abs_of_neg (by norm_num)] at h1
  norm_num at h1

theorem fl_nat_49 : P.fl 49 = 49 := P.near.self ⟨49, 0, by norm_num, by norm_num⟩

/-- `u * ~u == Unit()` fails for `u = m * 49.0`, on every platform. -/
theorem C154_inverse_fails (σ : SetOrder) : ∃ w, (exM.mulNum P (.flt 49)).inv P = .ok w ∧
    ((exM.mulNum P (.flt 49)).mul P σ w).eq (NUnit.mk' [] (.frac 1)) = false := by
  have hf : P.fl 1 = 1 := P.near.self (isFl_one (by norm_num))
  have hv : (exM.mulNum P (.flt 49)).value = .flt 49 := by
    simp [exM, NUnit.mulNum, NUnit.mk', Num.mul, Num.toFloat, hf, fl_nat_49]
  have hd : (Num.int 1).div P (.flt 49) = .ok (.flt (P.fl (1 / 49))) := by
    simp [Num.div, Num.val, Num.toFloat, hf]
  refine ⟨⟨dinv (exM.mulNum P (.flt 49)).dims, .flt (P.fl (1 / 49))⟩, by simp [NUnit.inv, hv, hd], ?_⟩
  have := fl_49_mul P
  simp only [NUnit.eq, NUnit.mul, hv, NUnit.mk', Num.mul, Num.val, Num.toFloat, Bool.and_eq_false_imp, decide_eq_true_eq]
  intro h
  exact absurd (by simpa using h) this

/-- `(49*m).to(m) * m.to(49*m) == 1` fails, on every platform. -/
theorem C154_to_inverse_fails : ∃ f g, (exM.mulNum P (.int 49)).to P exM = .ok f ∧
    exM.to P (exM.mulNum P (.int 49)) = .ok g ∧ P.fl (f * g) ≠ 1 := by
  have hd : ∀ k, dget (mkDims exM.dims) k = dget exM.dims k := fun k => dget_mkDims_self (mkDims_normal _) k
  have h1 : dictEq (mkDims exM.dims) exM.dims = true := (dictEq_iff (mkDims_normal _) (mkDims_normal _)).mpr hd
  have h2 : dictEq exM.dims (mkDims exM.dims) = true :=
    (dictEq_iff (mkDims_normal _) (mkDims_normal _)).mpr fun k => (hd k).symm
  refine ⟨49, P.fl (1 / 49), ?_, ?_, fl_49_mul P⟩
  · have : exM.value = .frac 1 := rfl
    simp [NUnit.to, NUnit.mulNum, h1, this, Num.mul, Num.div, Num.val, Num.toFloat, fl_nat_49]
  · have : exM.value = .frac 1 := rfl
    simp [NUnit.to, NUnit.mulNum, h2, this, Num.mul, Num.div, Num.val, Num.toFloat]

/-! ### Examples -/

/-- The hypotheses are met: `1/3 m` times `3`, divided by `Fraction(7, 2)`, to the power `-2`. -/
example : (NExpr.pow (.divNum (.mulNum (.lit [("L", 1)] (.frac (1 / 3))) (.int 3)) (.frac (7 / 2))) (-2)).Fractional :=
  ⟨⟨trivial, trivial⟩, trivial⟩

example : ∃ w, (NExpr.divNum (.lit [("L", 1)] (.frac 1)) (.int 49)).eval platRnd = .ok w ∧
    ∃ t, Within 7 t ∧ w.value.val = 1 / 49 * t := by
  have h := C154_rounding_partial platRnd (.divNum (.lit [("L", 1)] (.frac 1)) (.int 49))
  have hp := pyPow_int 49 (-1) (by norm_num)
  push_cast at hp
  have e : (NExpr.divNum (.lit [("L", 1)] (.frac 1)) (.int 49)).ideal.eval =
      .ok ((Unit.mk' [("L", 1)] 1).mulReal ((49 : ℝ) ^ (-1 : ℤ))) := by
    simp [NExpr.ideal, UExpr.eval, Unit.divReal, Num.val, bind, Except.bind, hp]
    rfl
  rw [e] at h
  obtain ⟨w, t, hw, -, ht, et⟩ := h
  exact ⟨w, hw, t, ht, by rw [et]; simp [Unit.mulReal, Unit.mk']⟩

example : exM.toUnit.WF ∧ (exM.mulNum platRnd (.int 49)).toUnit.WF ∧ exM.value.val ≠ 0 :=
  ⟨wf_mk _ _, wf_mk _ _, by simp [exM, NUnit.mk', Num.val]⟩

end Verif.Units
