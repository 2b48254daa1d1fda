import Verif.Ellred.TapeModel
import Verif.Ellred.CarlsonDeriv
import Verif.Ellred.CarlsonGrad
import Verif.Roots.Implicit
import Verif.Roots.BatchGrad

/-! # Backpropagation computes derivatives -/

namespace Verif.Ellred

open MeasureTheory Set Filter Topology Verif.Carlson Verif.Cosmo ComplexConjugate

namespace Ex

variable {n : ℕ}

/-- Where the operations are differentiable and their gradients right: no division by zero, square roots and Carlson functions off the negative axis, and
the arguments that the gradient formulas compare equal or apart. -/
def OK (ρ : Fin n → ℂ) : Ex n → Prop
  | var _ => True
  | const _ => True
  | add a b => OK ρ a ∧ OK ρ b
  | sub a b => OK ρ a ∧ OK ρ b
  | mul a b => OK ρ a ∧ OK ρ b
  | div a b => OK ρ a ∧ OK ρ b ∧ eval ρ b ≠ 0
  | re a => OK ρ a
  | sq a => OK ρ a
  | sqrt a => OK ρ a ∧ eval ρ a ∈ Complex.slitPlane
  | rf a b c => (OK ρ a ∧ OK ρ b ∧ OK ρ c) ∧ eval ρ a ∈ Complex.slitPlane ∧ eval ρ b ∈ Complex.slitPlane ∧ eval ρ c ∈ Complex.slitPlane
  | rc tol a b => (OK ρ a ∧ OK ρ b) ∧ eval ρ a ∈ Complex.slitPlane ∧ eval ρ b ∈ Complex.slitPlane ∧ 0 < tol ∧ CSep tol (eval ρ a) (eval ρ b)
  | rd tol a b c => (OK ρ a ∧ OK ρ b ∧ OK ρ c) ∧ eval ρ a ∈ Complex.slitPlane ∧ eval ρ b ∈ Complex.slitPlane ∧ eval ρ c ∈ Complex.slitPlane ∧ 0 < tol ∧
    CSep tol (eval ρ a) (eval ρ c) ∧ CSep tol (eval ρ b) (eval ρ c)
  | rj tol a b c d => (OK ρ a ∧ OK ρ b ∧ OK ρ c ∧ OK ρ d) ∧ eval ρ a ∈ Complex.slitPlane ∧ eval ρ b ∈ Complex.slitPlane ∧ eval ρ c ∈ Complex.slitPlane ∧
    eval ρ d ∈ Complex.slitPlane ∧ 0 < tol ∧ CSep tol (eval ρ a) (eval ρ d) ∧ CSep tol (eval ρ b) (eval ρ d) ∧ CSep tol (eval ρ c) (eval ρ d)

theorem rfBackward_eq (x y z g : ℂ) : rfBackward x y z g = (conj (RDc z y x / (-6)) * g, conj (RDc x z y / (-6)) * g, conj (RDc y x z / (-6)) * g) := rfl

/-- The reverse pass is the transpose of the derivative. -/
theorem back_vjp (e : Ex n) {ρ : ℝ → Fin n → ℂ} {ρ' : Fin n → ℂ} {s0 : ℝ} (hρ : ∀ i, HasDerivAt (fun s => ρ s i) (ρ' i) s0) (h : e.OK (ρ s0)) :
    ∃ d, HasDerivAt (fun s => e.eval (ρ s)) d s0 ∧ ∀ g, (conj g * d).re = ∑ i, (conj (e.back (ρ s0) g i) * ρ' i).re := by
  have add' : ∀ (f f' : Fin n → ℂ), ∑ i, (conj ((f + f') i) * ρ' i).re = ∑ i, (conj (f i) * ρ' i).re + ∑ i, (conj (f' i) * ρ' i).re := fun f f' => by
    rw [← Finset.sum_add_distrib]
    exact Finset.sum_congr rfl fun i _ => by rw [Pi.add_apply, map_add, add_mul, Complex.add_re]
  induction e with
  | var i =>
    refine ⟨ρ' i, hρ i, fun g => ?_⟩
    simp only [back]
    rw [Finset.sum_eq_single i (fun j _ hj => by rw [if_neg hj, map_zero, zero_mul, Complex.zero_re]) (by simp), if_pos rfl]
  | const c => exact ⟨0, hasDerivAt_const _ _, fun g => by simp [back]⟩
  | add a b iha ihb =>
    obtain ⟨da, ha, va⟩ := iha h.1
    obtain ⟨db, hb, vb⟩ := ihb h.2
    refine ⟨da + db, ha.add hb, fun g => ?_⟩
    rw [back, add', ← va, ← vb, mul_add, Complex.add_re]
  | sub a b iha ihb =>
    obtain ⟨da, ha, va⟩ := iha h.1
    obtain ⟨db, hb, vb⟩ := ihb h.2
    refine ⟨da - db, ha.sub hb, fun g => ?_⟩
    rw [back, add', ← va, ← vb, ← Complex.add_re, map_neg]
    congr 1
    ring
  | mul a b iha ihb =>
    obtain ⟨da, ha, va⟩ := iha h.1
    obtain ⟨db, hb, vb⟩ := ihb h.2
    refine ⟨_, ha.mul hb, fun g => ?_⟩
    rw [back, add', ← va, ← vb, ← Complex.add_re, map_mul, map_mul, Complex.conj_conj, Complex.conj_conj]
    congr 1
    ring
  | div a b iha ihb =>
    obtain ⟨da, ha, va⟩ := iha h.1
    obtain ⟨db, hb, vb⟩ := ihb h.2.1
    have h0 := h.2.2
    refine ⟨_, ha.div hb h0, fun g => ?_⟩
    rw [back, add', ← va, ← vb, ← Complex.add_re, map_mul, map_div₀, Complex.conj_conj, Complex.conj_conj, map_neg]
    congr 1
    field_simp
    ring
  | re a iha =>
    obtain ⟨da, ha, va⟩ := iha h
    refine ⟨(da.re : ℂ), ?_, fun g => ?_⟩
    · have := (Complex.reCLM.hasFDerivAt.comp_hasDerivAt s0 ha).ofReal_comp
      exact this
    · rw [back, ← va]
      simp
  | sq a iha =>
    obtain ⟨da, ha, va⟩ := iha h
    refine ⟨_, ha.pow 2, fun g => ?_⟩
    rw [back, ← va, map_mul, Complex.conj_conj]
    congr 1
    push_cast
    ring
  | sqrt a iha =>
    obtain ⟨da, ha, va⟩ := iha h.1
    refine ⟨_, (((hasDerivAt_id _).cpow_const (c := 1 / 2) h.2).scomp s0 ha : _), fun g => ?_⟩
    rw [back, ← va, map_mul, Complex.conj_conj]
    congr 1
    simp only [smul_eq_mul, id, mul_one]
    norm_num
    ring
  | rf a b c iha ihb ihc =>
    obtain ⟨⟨oa, ob, oc⟩, h1, h2, h3⟩ := h
    obtain ⟨da, ha, va⟩ := iha oa
    obtain ⟨db, hb, vb⟩ := ihb ob
    obtain ⟨dc, hc, vc⟩ := ihc oc
    refine ⟨_, RFc_deriv ha hb hc h1 h2 h3, fun g => ?_⟩
    simp only [back, rfBackward_eq]
    rw [add', add', ← va, ← vb, ← vc, ← Complex.add_re, ← Complex.add_re]
    simp only [map_mul, Complex.conj_conj]
    rw [RDc_swap (eval (ρ s0) b) (eval (ρ s0) c), RDc_swap (eval (ρ s0) a) (eval (ρ s0) b)]
    congr 1
    ring
  | rc tol a b iha ihb =>
    obtain ⟨⟨oa, ob⟩, h1, h2, ht, s1⟩ := h
    obtain ⟨da, ha, va⟩ := iha oa
    obtain ⟨db, hb, vb⟩ := ihb ob
    obtain ⟨w', hw, hv⟩ := C84_elliprc_complex ht ha hb h1 h2 s1
    refine ⟨w', hw, fun g => ?_⟩
    simp only [back]
    rw [add', ← va, ← vb]
    exact hv g
  | rd tol a b c iha ihb ihc =>
    obtain ⟨⟨oa, ob, oc⟩, h1, h2, h3, ht, s1, s2⟩ := h
    obtain ⟨da, ha, va⟩ := iha oa
    obtain ⟨db, hb, vb⟩ := ihb ob
    obtain ⟨dc, hc, vc⟩ := ihc oc
    obtain ⟨w', hw, hv⟩ := C85_elliprd_complex ht ha hb hc h1 h2 h3 s1 s2
    refine ⟨w', hw, fun g => ?_⟩
    simp only [back]
    rw [add', add', ← va, ← vb, ← vc]
    exact hv g
  | rj tol a b c d iha ihb ihc ihd =>
    obtain ⟨⟨oa, ob, oc, od⟩, h1, h2, h3, h4, ht, s1, s2, s3⟩ := h
    obtain ⟨da, ha, va⟩ := iha oa
    obtain ⟨db, hb, vb⟩ := ihb ob
    obtain ⟨dc, hc, vc⟩ := ihc oc
    obtain ⟨dd, hd, vd⟩ := ihd od
    obtain ⟨w', hw, hv⟩ := C86_elliprj_complex ht ha hb hc hd h1 h2 h3 h4 s1 s2 s3
    refine ⟨w', hw, fun g => ?_⟩
    simp only [back]
    rw [add', add', add', ← va, ← vb, ← vc, ← vd]
    exact hv g

end Ex

/-- The gradients of the coefficients, with the paths of the roots. -/
theorem backprop {rts : List ℂ} (hne : rts ≠ []) (hnd : rts.Nodup) (e : Ex (3 + rts.length)) {L z1 z2 : ℝ → ℝ} {C : ℝ → Fin rts.length → ℝ} {L' z1' z2' s0 : ℝ}
    {C' : Fin rts.length → ℝ} (hL : HasDerivAt L L' s0) (h1 : HasDerivAt z1 z1' s0) (h2 : HasDerivAt z2 z2' s0) (hC : ∀ j, HasDerivAt (fun s => C s j) (C' j) s0)
    (hL0 : L s0 ≠ 0) (hr : Roots.AreRoots (List.ofFn fun j => ((C s0 j / L s0 : ℝ) : ℂ)) rts) (hok : e.OK (inputs (L s0) (z1 s0) (z2 s0) rts.get)) :
    ∃ r : ℝ → Fin rts.length → ℂ, r s0 = rts.get ∧ (∀ᶠ s in 𝓝 s0, Roots.AreRoots (List.ofFn fun j => ((C s j / L s : ℝ) : ℂ)) (List.ofFn (r s))) ∧
      ∃ d, HasDerivAt (fun s => e.eval (inputs (L s) (z1 s) (z2 s) (r s))) d s0 ∧ ∀ g : ℝ,
        let G := e.back (inputs (L s0) (z1 s0) (z2 s0) rts.get) g
        ∃ gc : Fin rts.length → ℂ, rootsBackward rts (List.ofFn fun i => G (Fin.natAdd 3 i)) = .ok (List.ofFn gc) ∧
        g * d.re = (G (Fin.castAdd _ 0)).re * L' + (G (Fin.castAdd _ 1)).re * z1' + (G (Fin.castAdd _ 2)).re * z2' +
          ∑ j, (gc j).re * (C' j / L s0 - C s0 j / L s0 / L s0 * L') := by
  have hc : ∀ j, HasDerivAt (fun s => ((C s j / L s : ℝ) : ℂ)) ((C' j / L s0 - C s0 j / L s0 / L s0 * L' : ℝ) : ℂ) s0 := fun j => by
    have := ((hC j).div hL hL0).ofReal_comp
    refine this.congr_deriv ?_
    congr 1
    field_simp
  obtain ⟨gr, hg, r, r0, hev, hd⟩ := Roots.C31_root_paths (List.length_pos_iff.mpr hne) (fun s j => ((C s j / L s : ℝ) : ℂ)) _ s0 rts rfl hnd hr hc
  have r0' : r s0 = rts.get := funext fun m => r0 m
  refine ⟨r, r0', hev, ?_⟩
  have hρ : ∀ i, HasDerivAt (fun s => inputs (L s) (z1 s) (z2 s) (r s) i)
      ((Fin.append ![(L' : ℂ), (z1' : ℂ), (z2' : ℂ)] fun m => ∑ j, gr j m * ((C' j / L s0 - C s0 j / L s0 / L s0 * L' : ℝ) : ℂ)) i) s0 := fun i => by
    refine Fin.addCases (fun i => ?_) (fun i => ?_) i
    · simp only [inputs, Fin.append_left]
      fin_cases i
      · exact hL.ofReal_comp
      · exact h1.ofReal_comp
      · exact h2.ofReal_comp
    · simp only [inputs, Fin.append_right]
      exact hd i
  obtain ⟨d, hd', hv⟩ := e.back_vjp hρ (by rwa [r0'])
  refine ⟨d, hd', fun g => ?_⟩
  rw [r0'] at hv
  intro G
  have hdet : ¬ (Matrix.of fun i j : Fin rts.length => (Roots.fullCoeffs (rts.eraseIdx i)).getD j 0).det = 0 := fun h => (Roots.Batch.det_eq_zero_iff rts).mp h hnd
  rw [Roots.grads, Roots.backwardMatrix_ok rts hne] at hg
  simp only at hg
  refine ⟨fun j => ∑ k : Fin rts.length, conj (gr j k) * G (Fin.natAdd 3 k), ?_, ?_⟩
  · rw [rootsBackward, Roots.backwardMatrix_ok rts hne]
    simp only
    rw [if_neg hdet, Except.ok.inj hg]
    congr 2
    funext j
    refine Finset.sum_congr rfl fun k _ => ?_
    congr 1
    simp [List.getD_eq_getElem?_getD]
  · have := hv (g : ℂ)
    rw [Complex.conj_ofReal, Complex.re_ofReal_mul, Fin.sum_univ_add, Fin.sum_univ_three] at this
    rw [this]
    simp only [Fin.append_left, Fin.append_right, Matrix.cons_val_zero, Matrix.cons_val_one, Matrix.cons_val, Complex.re_mul_ofReal, Complex.conj_re]
    congr 1
    simp only [Finset.mul_sum, ← mul_assoc, Complex.re_sum, Complex.re_mul_ofReal]
    rw [Finset.sum_comm]
    refine Finset.sum_congr rfl fun j _ => ?_
    rw [Finset.sum_mul]
    refine Finset.sum_congr rfl fun k _ => ?_
    congr 1
    simp only [Complex.mul_re, Complex.conj_re, Complex.conj_im, G]
    ring

end Verif.Ellred
