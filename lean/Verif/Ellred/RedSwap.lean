import Verif.Ellred.RedCubic

/-! # Exchanging the limits -/

namespace Verif.Ellred

open MeasureTheory Set Verif.Carlson

namespace EllRed

/-- The same integrand with the limits exchanged. -/
def swap (E : EllRed) : EllRed := { E with x := E.y, y := E.x }

variable {E : EllRed}

theorem xmy_swap : E.swap.xmy = -E.xmy := by simp [xmy, swap]

theorem U2_swap (i j : ℕ) : E.swap.U2 i j = E.U2 i j := by
  have e : E.swap.rest [i, j] = E.rest [i, j] := rfl
  have hX : E.swap.X = E.Y := rfl
  have hY : E.swap.Y = E.X := rfl
  rw [U2, U2, e, hX, hY]
  split
  · ring
  · rfl

theorem U2nu_swap (i nu : ℕ) : E.swap.U2nu i nu = E.U2nu i nu := by
  have e : E.swap.rest [i] = E.rest [i] := rfl
  have hd : E.swap.d = E.d := rfl
  rw [U2nu, U2nu, e, hd]
  split
  · rw [xmy_swap, U2_swap, neg_sq]
  · rfl

theorem S2_swap (i nu : ℕ) : E.swap.S2 i nu = E.S2 i nu := by
  have e : E.swap.rest [i] = E.rest [i] := rfl
  have hX : E.swap.X = E.Y := rfl
  have hY : E.swap.Y = E.X := rfl
  rw [S2, S2, e, hX, hY]
  split
  · ring
  · rfl

theorem Q2_swap (i nu : ℕ) : E.swap.Q2 i nu = E.Q2 i nu := by
  have hX : E.swap.X = E.Y := rfl
  have hY : E.swap.Y = E.X := rfl
  rw [Q2, Q2, hX, hY, U2nu_swap, mul_comm (E.Y nu ^ 2), mul_comm (E.Y i ^ 2)]

theorem Ie0_swap : E.swap.Ie0 = -E.Ie0 := by
  simp only [Ie0, xmy_swap, U2_swap]; ring

theorem IeOut_swap (nu : ℕ) : E.swap.IeOut nu = -E.IeOut nu := by
  have e : E.swap.idxSet = E.idxSet := rfl
  have hd : E.swap.d = E.d := rfl
  rw [IeOut, IeOut, e, hd]
  split
  · simp only [xmy_swap, U2_swap, U2nu_swap, S2_swap, Q2_swap, Ie0_swap]
    split_ifs <;> ring
  · simp

theorem IeBr_swap (i : ℕ) : E.swap.IeBr i = -E.IeBr i := by
  have e : E.swap.rest [i] = E.rest [i] := rfl
  have hd : E.swap.d = E.d := rfl
  have hX : E.swap.X = E.Y := rfl
  have hY : E.swap.Y = E.X := rfl
  rw [IeBr, IeBr, e, hd, hX, hY]
  split
  · next j k l _ =>
    simp only [xmy_swap, U2_swap, Ie0_swap]
    rw [mul_comm (E.Y j), mul_comm (E.Y i)]
    split_ifs <;> ring
  · simp

theorem IePos_swap (i : ℕ) : E.swap.IePos i = -E.IePos i := by
  have e : E.swap.rest [i] = E.rest [i] := rfl
  have hd : E.swap.d = E.d := rfl
  have hh : E.swap.h = E.h := rfl
  have ha : E.swap.av = E.av := rfl
  have hs : E.swap.s = E.s := rfl
  have hx : E.swap.x = E.y := rfl
  have hy : E.swap.y = E.x := rfl
  rw [IePos, IePos, e, hd, hh, ha, hs, hx, hy]
  split_ifs
  · split
    · rw [IeBr_swap]; ring
    · simp
  · split
    · rw [xmy_swap, U2_swap, U2_swap, U2_swap, U2nu_swap, S2_swap, Q2_swap]; ring
    · simp

theorem Ie_swap (i : ℤ) : E.swap.Ie i = -E.Ie i := by
  have hd : E.swap.d = E.d := rfl
  have hh : E.swap.h = E.h := rfl
  rw [Ie, Ie, hh, hd]
  split_ifs
  · exact IeOut_swap _
  · exact IeBr_swap _
  · exact Ie0_swap
  · exact IePos_swap _
  · rw [IePos_swap, Ie0_swap]; ring

theorem J_swap (q : ℤ) (j : ℕ) : E.swap.J q j = -E.J q j := by
  rw [J, J, ← intervalIntegral.integral_symm]
  rfl

theorem Ok0.swap (h : Ok0 E) : Ok0 E.swap := ⟨h.le, fun b hb t ht => h.slit b hb t (by rwa [uIcc_comm] at ht)⟩

theorem Ok.swap (h : Ok E) : Ok E.swap := ⟨Ok0.swap h, h.nodup⟩

theorem Ie_zero (hxy : E.x = E.y) (i : ℤ) : E.Ie i = 0 := by
  have e : E.swap = E := by
    cases E
    simp only [EllRed.swap] at *
    subst hxy
    rfl
  have := Ie_swap (E := E) i
  rw [e] at this
  exact self_eq_neg.mp this

theorem J_zero (hxy : E.x = E.y) (q : ℤ) (j : ℕ) : E.J q j = 0 := by
  rw [J, hxy, intervalIntegral.integral_same]

end EllRed

end Verif.Ellred
