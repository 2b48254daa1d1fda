import Verif.Ellred.RedProps
import Verif.Ellred.Leibniz

/-! # The gradients of `elliptic_integral` (special/elliptic_reduction/functional.py): C105 -/

namespace Verif.Ellred

open MeasureTheory Set Filter Topology ComplexConjugate

/-- `EllipticIntegral.forward(ctx, m, h, z1, z2, *a)` (functional.py:19-24). -/
noncomputable def forward (m : List ℤ) (h : {h : ℕ // h = 3 ∨ h = 4}) (z1 z2 : ℝ) (a : List ℂ) : ℂ := (EllRed.mk z2 z1 a h.1 h.2).Im m

/-- `EllipticIntegral.backward(ctx, grad_output)` for the inputs `z1`, `z2` and `*a` (functional.py:26-40), all of which need gradients;
`grad.conj()` of a real tensor is the tensor itself.  The inner `EllipticIntegral.apply` is `forward`. -/
noncomputable def backward (m : List ℤ) (h : {h : ℕ // h = 3 ∨ h = 4}) (z1 z2 : ℝ) (a : List ℂ) (g : ℂ) : ℂ × ℂ × List ℂ :=
  let er := EllRed.mk z2 z1 a h.1 h.2
  (g * conj (-er.v m er.y), g * conj (er.v m er.x), (List.range er.n).map fun j =>
    g * conj (((m.getD j 0 : ℂ) - (if j < er.h then 1 else 0) / 2) *
      forward ((List.range er.n).map fun i => m.getD i 0 - if i = j then 1 else 0) h er.y er.x er.a))

theorem integrand_ofFn {n : ℕ} (w : Fin n → ℂ) (h : ℕ) (m : List ℤ) (t : ℝ) :
    integrand (List.ofFn w) h m t = powProd (fun i : Fin n => (m.getD i 0 : ℂ) - if (i : ℕ) < h then 1 / 2 else 0) w t := by
  rw [integrand, powProd]
  refine Fintype.prod_equiv (finCongr (List.length_ofFn)) _ _ fun i => ?_
  simp only [Fin.getElem_fin, List.getElem_ofFn, finCongr_apply, Fin.val_cast]
  rfl

/-- Gradients follow wherever the value is the integral. -/
theorem grad_of {n : ℕ} {m : List ℤ} {h : {h : ℕ // h = 3 ∨ h = 4}} (hm : m.length = n) {a : ℝ → Fin n → ℂ} {a' : Fin n → ℂ}
    {z1 z2 : ℝ → ℝ} {z1' z2' s0 : ℝ} (ha : HasDerivAt a a' s0) (h1 : HasDerivAt z1 z1' s0) (h2 : HasDerivAt z2 z2' s0)
    (hi : ∀ i, ∀ t ∈ uIcc (z1 s0) (z2 s0), a s0 i + (t : ℂ) ∈ Complex.slitPlane)
    (hv : ∀ᶠ s in 𝓝 s0, forward m h (z1 s) (z2 s) (List.ofFn (a s)) = ∫ t in (z1 s)..(z2 s), integrand (List.ofFn (a s)) h.1 m t)
    (hv' : ∀ m' : List ℤ, m'.length = n → forward m' h (z1 s0) (z2 s0) (List.ofFn (a s0)) = ∫ t in (z1 s0)..(z2 s0), integrand (List.ofFn (a s0)) h.1 m' t)
    {L : ℂ → ℝ} {L' : ℂ →L[ℝ] ℝ} {g : ℂ} (hL : HasFDerivAt L L' (forward m h (z1 s0) (z2 s0) (List.ofFn (a s0)))) (hg : ∀ d, L' d = (conj g * d).re) :
    HasDerivAt (fun s => L (forward m h (z1 s) (z2 s) (List.ofFn (a s))))
      (let b := backward m h (z1 s0) (z2 s0) (List.ofFn (a s0)) g
       (conj b.1 * z1').re + (conj b.2.1 * z2').re + ∑ j : Fin n, (conj (b.2.2.getD j 0) * a' j).re) s0 := by
  have hd := powProd_deriv (fun i : Fin n => (m.getD i 0 : ℂ) - if (i : ℕ) < h.1 then 1 / 2 else 0) ha h2 h1 hi
  have hd' : HasDerivAt (fun s => forward m h (z1 s) (z2 s) (List.ofFn (a s))) _ s0 := hd.congr_of_eventuallyEq (by
    filter_upwards [hv] with s hs
    rw [hs]
    exact intervalIntegral.integral_congr fun t _ => integrand_ofFn _ _ _ _)
  have hc := hL.comp_hasDerivAt s0 hd'
  refine hc.congr_deriv ?_
  rw [hg]
  set E := EllRed.mk (z2 s0) (z1 s0) (List.ofFn (a s0)) h.1 h.2 with hE
  have hn : E.n = n := by rw [EllRed.n, hE, List.length_ofFn]
  have vv : ∀ t, E.v m t = powProd (fun i : Fin n => (m.getD i 0 : ℂ) - if (i : ℕ) < h.1 then 1 / 2 else 0) (a s0) t := by
    intro t
    rw [EllRed.v_eq_integrand (by rw [hn, hm]), hE]
    exact integrand_ofFn _ _ _ _
  have bj : ∀ j : Fin n, (backward m h (z1 s0) (z2 s0) (List.ofFn (a s0)) g).2.2.getD j 0 = g * conj (((m.getD j 0 : ℂ) - if (j : ℕ) < h.1 then 1 / 2 else 0) *
      ∫ t in (z1 s0)..(z2 s0), powProd (fun i : Fin n => ((m.getD i 0 : ℂ) - if (i : ℕ) < h.1 then 1 / 2 else 0) - if i = j then 1 else 0) (a s0) t) := by
    intro j
    simp only [backward, EllRed.n, List.length_ofFn]
    rw [List.getD_eq_getElem _ _ (by rw [List.length_map, List.length_range]; exact j.isLt), List.getElem_map, List.getElem_range, hv' _ (by simp)]
    congr 3
    · split_ifs <;> simp
    · apply intervalIntegral.integral_congr
      intro t _
      beta_reduce
      rw [integrand_ofFn]
      congr 1
      funext i
      rw [List.getD_eq_getElem _ _ (by simp), List.getElem_map, List.getElem_range]
      push_cast
      by_cases hij : i = j
      · subst hij; simp; ring
      · rw [if_neg (fun e => hij (Fin.ext e)), if_neg hij]; simp
  simp only [bj]
  have b1 : (backward m h (z1 s0) (z2 s0) (List.ofFn (a s0)) g).1 = g * conj (-E.v m (z1 s0)) := rfl
  have b2 : (backward m h (z1 s0) (z2 s0) (List.ofFn (a s0)) g).2.1 = g * conj (E.v m (z2 s0)) := rfl
  rw [b1, b2, vv, vv, ← Complex.re_sum, ← Complex.add_re, ← Complex.add_re]
  congr 1
  simp only [map_mul, Complex.conj_conj, map_neg]
  rw [mul_sub, mul_add, Finset.mul_sum, add_comm (∑ i, _) _, add_sub_right_comm]
  congr 1
  · ring
  · refine Finset.sum_congr rfl fun j _ => by ring

/-- The factors stay off the cut near `s0`. -/
theorem eventually_slit {n : ℕ} {a : ℝ → Fin n → ℂ} {x y : ℝ → ℝ} {s0 : ℝ} (ha : ContinuousAt a s0) (hx : ContinuousAt x s0) (hy : ContinuousAt y s0)
    (hi : ∀ i, ∀ t ∈ uIcc (y s0) (x s0), a s0 i + (t : ℂ) ∈ Complex.slitPlane) :
    ∀ᶠ s in 𝓝 s0, ∀ i, ∀ t ∈ uIcc (y s) (x s), a s i + (t : ℂ) ∈ Complex.slitPlane := by
  rw [eventually_all]
  intro i
  have h1 : ∀ᶠ s in 𝓝 s0, ∀ u ∈ Icc (0 : ℝ) 1, a s i + ((y s + u * (x s - y s) : ℝ) : ℂ) ∈ Complex.slitPlane := by
    refine isCompact_Icc.eventually_forall_of_forall_eventually fun u hu => ?_
    have hc : ContinuousAt (fun p : ℝ × ℝ => a p.1 i + ((y p.1 + p.2 * (x p.1 - y p.1) : ℝ) : ℂ)) (s0, u) := by
      have f1 : ContinuousAt (fun p : ℝ × ℝ => a p.1 i) (s0, u) :=
        ContinuousAt.comp (g := fun s => a s i) (f := Prod.fst) (x := (s0, u)) ((continuous_apply i).continuousAt.comp ha) continuousAt_fst
      have f2 : ContinuousAt (fun p : ℝ × ℝ => y p.1) (s0, u) := ContinuousAt.comp (g := y) (f := Prod.fst) (x := (s0, u)) hy continuousAt_fst
      have f3 : ContinuousAt (fun p : ℝ × ℝ => x p.1) (s0, u) := ContinuousAt.comp (g := x) (f := Prod.fst) (x := (s0, u)) hx continuousAt_fst
      exact f1.add (Complex.continuous_ofReal.continuousAt.comp (f2.add (continuousAt_snd.mul (f3.sub f2))))
    refine hc.eventually (Complex.isOpen_slitPlane.mem_nhds (hi i _ ?_))
    rcases le_total (y s0) (x s0) with h | h
    · rw [uIcc_of_le h]; constructor <;> nlinarith [hu.1, hu.2]
    · rw [uIcc_of_ge h]; constructor <;> nlinarith [hu.1, hu.2]
  filter_upwards [h1] with s hs t ht
  rw [← segment_eq_uIcc] at ht
  obtain ⟨p, q, hp, hq, hpq, rfl⟩ := ht
  have := hs q ⟨hq, by linarith⟩
  convert this using 3
  simp only [smul_eq_mul]
  obtain rfl : p = 1 - q := by linarith
  ring

theorem eventually_inj {n : ℕ} {a : ℝ → Fin n → ℂ} {s0 : ℝ} (ha : ContinuousAt a s0) (hd : (List.ofFn (a s0)).Nodup) :
    ∀ᶠ s in 𝓝 s0, (List.ofFn (a s)).Nodup := by
  simp only [List.nodup_ofFn] at hd ⊢
  have : ∀ᶠ s in 𝓝 s0, ∀ i j, i ≠ j → a s i ≠ a s j := by
    simp only [eventually_all]
    intro i j hij
    have f : ∀ i, Tendsto (fun s => a s i) (𝓝 s0) (𝓝 (a s0 i)) := fun i => (tendsto_pi_nhds.mp ha.tendsto) i
    have := ((f i).sub (f j)).eventually_ne (sub_ne_zero.mpr fun e => hij (hd e))
    filter_upwards [this] with s hs using sub_ne_zero.mp hs
  filter_upwards [this] with s hs i j e
  by_contra hij
  exact hs i j hij e

/-- C105: with `h = 3`, along any path of limits and coefficients which keeps the first three coefficients closed under conjugation and the
others real, the gradients that `backward` returns obey the chain rule: if `g` is the gradient of a real loss with respect to the integral
(`dL = Re (conj g dw)`, PyTorch's convention), then `dL/ds = Σ Re (conj (gradient) * d(input)/ds)`. -/
theorem C105_cubic {n : ℕ} (hn : 3 ≤ n) {m : List ℤ} (hm : m.length = n) {a : ℝ → Fin n → ℂ} {a' : Fin n → ℂ} {z1 z2 : ℝ → ℝ} {z1' z2' s0 : ℝ}
    (ha : HasDerivAt a a' s0) (h1 : HasDerivAt z1 z1' s0) (h2 : HasDerivAt z2 z2' s0) (hd : (List.ofFn (a s0)).Nodup)
    (hi : ∀ i, ∀ t ∈ uIcc (z1 s0) (z2 s0), a s0 i + (t : ℂ) ∈ Complex.slitPlane)
    (h3 : ∀ᶠ s in 𝓝 s0, (((List.ofFn (a s)).take 3).map conj).Perm ((List.ofFn (a s)).take 3) ∧ ∀ b ∈ (List.ofFn (a s)).drop 3, b.im = 0)
    {L : ℂ → ℝ} {L' : ℂ →L[ℝ] ℝ} {g : ℂ} (hL : HasFDerivAt L L' (forward m ⟨3, Or.inl rfl⟩ (z1 s0) (z2 s0) (List.ofFn (a s0))))
    (hg : ∀ d, L' d = (conj g * d).re) :
    HasDerivAt (fun s => L (forward m ⟨3, Or.inl rfl⟩ (z1 s) (z2 s) (List.ofFn (a s))))
      (let b := backward m ⟨3, Or.inl rfl⟩ (z1 s0) (z2 s0) (List.ofFn (a s0)) g
       (conj b.1 * z1').re + (conj b.2.1 * z2').re + ∑ j : Fin n, (conj (b.2.2.getD j 0) * a' j).re) s0 := by
  have key : ∀ᶠ s in 𝓝 s0, ∀ m' : List ℤ, m'.length = n → forward m' ⟨3, Or.inl rfl⟩ (z1 s) (z2 s) (List.ofFn (a s)) =
      ∫ t in (z1 s)..(z2 s), integrand (List.ofFn (a s)) 3 m' t := by
    filter_upwards [h3, eventually_slit ha.continuousAt h2.continuousAt h1.continuousAt hi, eventually_inj ha.continuousAt hd] with s s1 s2 s3 m' hm'
    refine C37_cubic _ _ _ (by rw [List.length_ofFn]; exact hn) s3 (fun b hb t ht => ?_) s1.1 s1.2 (by rw [List.length_ofFn]; exact hm')
    obtain ⟨i, rfl⟩ := List.mem_ofFn.mp hb
    exact s2 i t ht
  refine grad_of hm ha h1 h2 hi ?_ key.self_of_nhds hL hg
  filter_upwards [key] with s hs using hs m hm

/-- The last argument of `R_J` varies continuously. -/
theorem continuousAt_U2nu {F : ℝ → EllRed} {s0 : ℝ} (hh : ∀ s, (F s).h = 4) (hx : ContinuousAt (fun s => (F s).x) s0) (hy : ContinuousAt (fun s => (F s).y) s0)
    (ha : ∀ i, ContinuousAt (fun s => (F s).av i) s0) (h1 : ∀ i, 1 ≤ i → i ≤ 4 → (F s0).av i + ((F s0).x : ℂ) ∈ Complex.slitPlane)
    (h2 : ∀ i, 1 ≤ i → i ≤ 4 → (F s0).av i + ((F s0).y : ℂ) ∈ Complex.slitPlane) {i nu : ℕ} (hi : 1 ≤ i) (hi' : i ≤ 4) (hd : (F s0).d i nu ≠ 0) :
    ContinuousAt (fun s => (F s).U2nu i nu) s0 := by
  have hd' : ∀ i j, ContinuousAt (fun s => (F s).d i j) s0 := by
    intro i j
    unfold EllRed.d
    split_ifs
    · exact ((ha j).sub ((ha i).mul continuousAt_const)).neg
    · exact ((ha j).sub ((ha i).mul continuousAt_const)).neg
    · exact (ha i).sub ((ha j).mul continuousAt_const)
    · exact (ha i).sub ((ha j).mul continuousAt_const)
  have cX : ∀ i, 1 ≤ i → i ≤ 4 → ContinuousAt (fun s => (F s).X i) s0 := by
    intro i i1 i2
    simp only [EllRed.X, if_neg (show i ≠ 0 by omega), Carlson.csqrt]
    exact ((ha i).add (Complex.continuous_ofReal.continuousAt.comp hx)).cpow continuousAt_const (h1 i i1 i2)
  have cY : ∀ i, 1 ≤ i → i ≤ 4 → ContinuousAt (fun s => (F s).Y i) s0 := by
    intro i i1 i2
    simp only [EllRed.Y, if_neg (show i ≠ 0 by omega), Carlson.csqrt]
    exact ((ha i).add (Complex.continuous_ofReal.continuousAt.comp hy)).cpow continuousAt_const (h2 i i1 i2)
  have cm : ContinuousAt (fun s => (F s).xmy) s0 :=
    (Complex.continuous_ofReal.continuousAt.comp hx).sub (Complex.continuous_ofReal.continuousAt.comp hy)
  have cU : ∀ i j k l, i ∈ Icc 1 4 → j ∈ Icc 1 4 → k ∈ Icc 1 4 → l ∈ Icc 1 4 → (∀ s, (F s).rest [i, j] = [k, l]) → ContinuousAt (fun s => (F s).U2 i j) s0 := by
    intro i j k l i1 j1 k1 l1 hr
    simp only [EllRed.U2, hr]
    exact (((((cX i i1.1 i1.2).mul (cX j j1.1 j1.2)).mul (cY k k1.1 k1.2)).mul (cY l l1.1 l1.2)).add
      ((((cY i i1.1 i1.2).mul (cY j j1.1 j1.2)).mul (cX k k1.1 k1.2)).mul (cX l l1.1 l1.2))).pow 2
  have go : ∀ j k l, j ∈ Icc 1 4 → k ∈ Icc 1 4 → l ∈ Icc 1 4 → (∀ s, (F s).rest [i] = [j, k, l]) → (∀ s, (F s).rest [i, j] = [k, l]) →
      ContinuousAt (fun s => (F s).U2nu i nu) s0 := by
    intro j k l j1 k1 l1 hr hr'
    simp only [EllRed.U2nu, hr]
    exact (cU i j k l ⟨hi, hi'⟩ j1 k1 l1 hr').sub (((((cm.pow 2).mul (hd' i k)).mul (hd' i l)).mul (hd' j nu)).div (hd' i nu) hd)
  have hI : i = 1 ∨ i = 2 ∨ i = 3 ∨ i = 4 := by omega
  rcases hI with rfl | rfl | rfl | rfl
  · exact go 2 3 4 (by simp) (by simp) (by simp) (fun s => by simp [EllRed.rest, EllRed.idx4 (hh s)]) (fun s => by simp [EllRed.rest, EllRed.idx4 (hh s)])
  · exact go 1 3 4 (by simp) (by simp) (by simp) (fun s => by simp [EllRed.rest, EllRed.idx4 (hh s)]) (fun s => by simp [EllRed.rest, EllRed.idx4 (hh s)])
  · exact go 1 2 4 (by simp) (by simp) (by simp) (fun s => by simp [EllRed.rest, EllRed.idx4 (hh s)]) (fun s => by simp [EllRed.rest, EllRed.idx4 (hh s)])
  · exact go 1 2 3 (by simp) (by simp) (by simp) (fun s => by simp [EllRed.rest, EllRed.idx4 (hh s)]) (fun s => by simp [EllRed.rest, EllRed.idx4 (hh s)])

/-- C105: the same for `h = 4` with real coefficients, as far as C37 goes. -/
theorem C105_quartic {n : ℕ} (hn : 4 ≤ n) {m : List ℤ} (hm : m.length = n) {a : ℝ → Fin n → ℝ} {a' : Fin n → ℝ} {z1 z2 : ℝ → ℝ} {z1' z2' s0 : ℝ}
    (ha : HasDerivAt a a' s0) (h1 : HasDerivAt z1 z1' s0) (h2 : HasDerivAt z2 z2' s0) (hd : (List.ofFn (a s0)).Nodup)
    (hi : ∀ i, 0 < a s0 i + z1 s0 ∧ 0 < a s0 i + z2 s0)
    (hp : ∀ i, 1 ≤ i → i ≤ 4 → 0 < ((EllRed.mk (z2 s0) (z1 s0) ((List.ofFn (a s0)).map (↑)) 4 (Or.inr rfl)).U2nu i 0).re)
    (hq : ∀ j, 4 < j → j ≤ n → 0 < ((EllRed.mk (z2 s0) (z1 s0) ((List.ofFn (a s0)).map (↑)) 4 (Or.inr rfl)).U2nu 1 j).re)
    {L : ℂ → ℝ} {L' : ℂ →L[ℝ] ℝ} {g : ℂ} (hL : HasFDerivAt L L' (forward m ⟨4, Or.inr rfl⟩ (z1 s0) (z2 s0) ((List.ofFn (a s0)).map (↑))))
    (hg : ∀ d, L' d = (conj g * d).re) :
    HasDerivAt (fun s => L (forward m ⟨4, Or.inr rfl⟩ (z1 s) (z2 s) ((List.ofFn (a s)).map (↑))))
      (let b := backward m ⟨4, Or.inr rfl⟩ (z1 s0) (z2 s0) ((List.ofFn (a s0)).map (↑)) g
       (conj b.1 * z1').re + (conj b.2.1 * z2').re + ∑ j : Fin n, (conj (b.2.2.getD j 0) * a' j).re) s0 := by
  have hof : ∀ s, (List.ofFn (a s)).map ((↑) : ℝ → ℂ) = List.ofFn fun i => (a s i : ℂ) := fun s => by rw [List.map_ofFn]; rfl
  have hac : HasDerivAt (fun s i => (a s i : ℂ)) (fun i => (a' i : ℂ)) s0 := by
    rw [hasDerivAt_pi] at ha ⊢
    exact fun i => (ha i).ofReal_comp
  have hi' : ∀ i, ∀ t ∈ uIcc (z1 s0) (z2 s0), ((a s0 i : ℝ) : ℂ) + (t : ℂ) ∈ Complex.slitPlane := by
    intro i t ht
    rw [← Complex.ofReal_add, Complex.ofReal_mem_slitPlane]
    have := ht.1
    rcases min_choice (z1 s0) (z2 s0) with e | e
    · have h : z1 s0 ≤ t := by rw [← e]; exact this
      linarith [(hi i).1]
    · have h : z2 s0 ≤ t := by rw [← e]; exact this
      linarith [(hi i).2]
  have hev : ∀ᶠ s in 𝓝 s0, (∀ i, 1 ≤ i → i ≤ 4 → 0 < ((EllRed.mk (z2 s) (z1 s) ((List.ofFn (a s)).map (↑)) 4 (Or.inr rfl)).U2nu i 0).re) ∧
      ∀ j, 4 < j → j ≤ n → 0 < ((EllRed.mk (z2 s) (z1 s) ((List.ofFn (a s)).map (↑)) 4 (Or.inr rfl)).U2nu 1 j).re := by
    obtain ⟨F, hF⟩ : ∃ F : ℝ → EllRed, F = fun s => EllRed.mk (z2 s) (z1 s) ((List.ofFn (a s)).map ((↑) : ℝ → ℂ)) 4 (Or.inr rfl) := ⟨_, rfl⟩
    have Fx : (F s0).x = z2 s0 := by rw [hF]
    have Fy : (F s0).y = z1 s0 := by rw [hF]
    change ∀ i, 1 ≤ i → i ≤ 4 → 0 < (((fun s => EllRed.mk (z2 s) (z1 s) ((List.ofFn (a s)).map ((↑) : ℝ → ℂ)) 4 (Or.inr rfl)) s0).U2nu i 0).re at hp
    change ∀ j, 4 < j → j ≤ n → 0 < (((fun s => EllRed.mk (z2 s) (z1 s) ((List.ofFn (a s)).map ((↑) : ℝ → ℂ)) 4 (Or.inr rfl)) s0).U2nu 1 j).re at hq
    change ∀ᶠ s in 𝓝 s0, (∀ i, 1 ≤ i → i ≤ 4 → 0 < (((fun s => EllRed.mk (z2 s) (z1 s) ((List.ofFn (a s)).map ((↑) : ℝ → ℂ)) 4 (Or.inr rfl)) s).U2nu i 0).re) ∧
      ∀ j, 4 < j → j ≤ n → 0 < (((fun s => EllRed.mk (z2 s) (z1 s) ((List.ofFn (a s)).map ((↑) : ℝ → ℂ)) 4 (Or.inr rfl)) s).U2nu 1 j).re
    rw [← hF] at hp hq ⊢
    have av_eq : ∀ s i, (hi : 1 ≤ i) → (hi' : i ≤ n) → (F s).av i =
        ((a s ⟨i - 1, by omega⟩ : ℝ) : ℂ) := by
      intro s i i1 i2
      rw [hF, EllRed.av, if_pos (by omega), List.getD_eq_getElem _ _ (by simp; omega)]
      simp
    have ca : ∀ i, ContinuousAt (fun s => (F s).av i) s0 := by
      intro i
      by_cases h0 : 1 ≤ i
      · by_cases h4 : i ≤ n
        · simp only [av_eq _ i h0 h4]
          exact Complex.continuous_ofReal.continuousAt.comp ((tendsto_pi_nhds.mp ha.continuousAt.tendsto) _)
        · have : ∀ s, (F s).av i = 0 := by
            intro s
            rw [hF, EllRed.av, if_pos (by omega), List.getD_eq_default _ _ (by simp; omega)]
          simp only [this]
          exact continuousAt_const
      · simp only [EllRed.av, if_neg (show ¬ 0 < i by omega)]
        exact continuousAt_const
    have sx : ∀ i, 1 ≤ i → i ≤ 4 → (F s0).av i + ((z2 s0 : ℝ) : ℂ) ∈ Complex.slitPlane := by
      intro i i1 i2
      rw [av_eq _ i i1 (by omega)]
      exact hi' _ _ right_mem_uIcc
    have sy : ∀ i, 1 ≤ i → i ≤ 4 → (F s0).av i + ((z1 s0 : ℝ) : ℂ) ∈ Complex.slitPlane := by
      intro i i1 i2
      rw [av_eq _ i i1 (by omega)]
      exact hi' _ _ left_mem_uIcc
    have cu : ∀ i nu, 1 ≤ i → i ≤ 4 → (F s0).d i nu ≠ 0 →
        ContinuousAt (fun s => ((F s).U2nu i nu).re) s0 := fun i nu i1 i2 hd =>
      Complex.continuous_re.continuousAt.comp (continuousAt_U2nu (F := F) (fun _ => by rw [hF])
        (by simp only [hF]; exact h2.continuousAt) (by simp only [hF]; exact h1.continuousAt) ca (by rw [Fx]; exact sx) (by rw [Fy]; exact sy) i1 i2 hd)
    have f1 : ∀ᶠ s in 𝓝 s0, ∀ i ∈ Finset.Icc 1 4, 0 < ((F s).U2nu i 0).re := by
      rw [Filter.eventually_all_finset]
      intro i hi
      obtain ⟨i1, i2⟩ := Finset.mem_Icc.mp hi
      exact continuousAt_const.eventually_lt (cu i 0 i1 i2 (by rw [EllRed.d_to_zero i1]; norm_num)) (hp i i1 i2)
    have f2 : ∀ᶠ s in 𝓝 s0, ∀ j ∈ Finset.Icc 5 n, 0 < ((F s).U2nu 1 j).re := by
      rw [Filter.eventually_all_finset]
      intro j hj
      obtain ⟨j1, j2⟩ := Finset.mem_Icc.mp hj
      refine continuousAt_const.eventually_lt (cu 1 j le_rfl (by norm_num) ?_) (hq j (by omega) j2)
      rw [EllRed.d_eq (by omega) (by omega), av_eq _ 1 le_rfl (by omega), av_eq _ j (by omega) j2, sub_ne_zero]
      intro e
      rw [List.nodup_ofFn] at hd
      have := congrArg Fin.val (hd (Complex.ofReal_injective e))
      simp only at this
      omega
    filter_upwards [f1, f2] with s s1 s2
    exact ⟨fun i i1 i2 => s1 i (Finset.mem_Icc.mpr ⟨i1, i2⟩), fun j j1 j2 => s2 j (Finset.mem_Icc.mpr ⟨j1, j2⟩)⟩
  have key : ∀ᶠ s in 𝓝 s0, ∀ m' : List ℤ, m'.length = n → forward m' ⟨4, Or.inr rfl⟩ (z1 s) (z2 s) (List.ofFn fun i => (a s i : ℂ)) =
      ∫ t in (z1 s)..(z2 s), integrand (List.ofFn fun i => (a s i : ℂ)) 4 m' t := by
    have inj := eventually_inj hac.continuousAt (by rw [← hof]; exact hd.map Complex.ofReal_injective)
    filter_upwards [hev, eventually_slit hac.continuousAt h2.continuousAt h1.continuousAt hi', inj] with s s1 s2 s3 m' hm'
    rw [← hof] at s3 ⊢
    refine C37_quartic _ _ _ (by rw [List.length_ofFn]; exact hn) s3.of_map (fun b hb => ?_) s1.1
      (fun j j1 j2 => s1.2 j j1 (by rwa [List.length_ofFn] at j2)) (by rw [List.length_ofFn]; exact hm')
    obtain ⟨i, rfl⟩ := List.mem_ofFn.mp hb
    have e1 := s2 i _ right_mem_uIcc
    have e2 := s2 i _ left_mem_uIcc
    rw [← Complex.ofReal_add, Complex.ofReal_mem_slitPlane] at e1 e2
    exact ⟨e1, e2⟩
  simp only [hof] at hL ⊢
  refine grad_of hm hac h1 h2 hi' ?_ key.self_of_nhds hL hg
  filter_upwards [key] with s hs using hs m hm

/-- A moving conjugate pair, a moving real coefficient, a moving limit: the real part of the integral. -/
example : ∃ D, HasDerivAt (fun s : ℝ => (forward [2, 0, -1, -3] ⟨3, Or.inl rfl⟩ (1 + s) 0
    (List.ofFn ![1 + s + Complex.I, 1 + s - Complex.I, 2, ((3 - 2 * s : ℝ) : ℂ)])).re) D 0 := by
  have ha : HasDerivAt (fun s : ℝ => (![1 + s + Complex.I, 1 + s - Complex.I, 2, ((3 - 2 * s : ℝ) : ℂ)] : Fin 4 → ℂ)) ![1, 1, 0, ((-2 : ℝ) : ℂ)] 0 := by
    have h0 : HasDerivAt (fun s : ℝ => (s : ℂ)) 1 0 := by simpa using (hasDerivAt_id (0 : ℝ)).ofReal_comp
    rw [hasDerivAt_pi]
    intro i
    fin_cases i
    · simpa using (h0.const_add 1).add_const Complex.I
    · simpa using (h0.const_add 1).sub_const Complex.I
    · simpa using hasDerivAt_const (0 : ℝ) (2 : ℂ)
    · have := (((hasDerivAt_id (0 : ℝ)).const_mul 2).const_sub 3).ofReal_comp
      simpa using this
  have h1 : HasDerivAt (fun s : ℝ => 1 + s) 1 0 := (hasDerivAt_id (0 : ℝ)).const_add 1
  refine ⟨_, C105_cubic (by norm_num) (by rfl) ha h1 (hasDerivAt_const 0 0) ?_ ?_ (.of_forall fun s => ⟨?_, ?_⟩) (L := Complex.re) (g := 1)
    Complex.reCLM.hasFDerivAt fun d => by simp⟩
  · simp only [List.nodup_ofFn]
    intro i j
    fin_cases i <;> fin_cases j <;> simp [Complex.ext_iff] <;> norm_num
  · intro i t ht
    have ht0 : 0 ≤ t := by
      rw [uIcc_of_ge (by norm_num)] at ht; exact ht.1
    fin_cases i <;> left <;> simp <;> linarith
  · simp only [List.ofFn_succ, List.take_succ_cons, List.take_zero, List.map_cons, List.map_nil]
    simp
    rw [← sub_eq_add_neg, Complex.conj_ofNat]
    exact List.Perm.swap _ _ _
  · simp [List.ofFn_succ]

/-- Moving real coefficients and a moving upper limit with `h = 4`. -/
example : ∃ D, HasDerivAt (fun s : ℝ => (forward [1, 0, -2, 0, 3] ⟨4, Or.inr rfl⟩ 0 (240 + 3 * s)
    ((List.ofFn ![289 + s, 121 - 2 * s, 49, 16, 1 + s]).map ((↑) : ℝ → ℂ))).re) D 0 := by
  have ha : HasDerivAt (fun s : ℝ => ![289 + s, 121 - 2 * s, 49, 16, 1 + s]) ![1, -2, 0, 0, 1] 0 := by
    rw [hasDerivAt_pi]
    intro i
    fin_cases i
    · simpa using (hasDerivAt_id (0 : ℝ)).const_add 289
    · simpa using ((hasDerivAt_id (0 : ℝ)).const_mul 2).const_sub 121
    · simpa using hasDerivAt_const (0 : ℝ) (49 : ℝ)
    · simpa using hasDerivAt_const (0 : ℝ) (16 : ℝ)
    · simpa using (hasDerivAt_id (0 : ℝ)).const_add 1
  have h2 : HasDerivAt (fun s : ℝ => 240 + 3 * s) (3 * 1) 0 := ((hasDerivAt_id (0 : ℝ)).const_mul 3).const_add 240
  have e : (List.ofFn ![289 + (0 : ℝ), 121 - 2 * 0, 49, 16, 1 + 0]) = [289, 121, 49, 16, 1] := by
    simp [List.ofFn_succ]
  refine ⟨_, C105_quartic (by norm_num) (by rfl) ha (hasDerivAt_const 0 0) h2 ?_ ?_ ?_ ?_ (L := Complex.re) (g := 1)
    Complex.reCLM.hasFDerivAt fun d => by simp⟩
  · rw [e]; norm_num
  · intro i
    fin_cases i <;> norm_num
  · rw [e, mul_zero, add_zero]
    exact demo_U2nu.1
  · rw [e, mul_zero, add_zero]
    exact demo_U2nu.2

end Verif.Ellred
