import Verif.Interp.FloatDistModel
import Verif.Interp.FloatProps
import Verif.Interp.Dist

/-! # C159: sampling in floating point -/

namespace Verif.Interp

open Verif.Round

variable {p q : ℕ} {fl flA : ℝ → ℝ}

/-! ### Counting roundings -/

theorem Near.refl (a : ℝ) : Near p 0 a a := ⟨1, NearOne.one, (mul_one a).symm⟩

theorem Near.mono (hp : 1 ≤ p) {K L : ℕ} {a b : ℝ} (h : Near p K a b) (hKL : K ≤ L) : Near p L a b :=
  let ⟨t, ht, e⟩ := h; ⟨t, ht.mono hp hKL, e⟩

theorem Near.trans (hp : 1 ≤ p) {K L : ℕ} {a b c : ℝ} (h : Near p K a b) (h' : Near p L b c) : Near p (K + L) a c := by
  obtain ⟨t, ht, rfl⟩ := h
  obtain ⟨s, hs, rfl⟩ := h'
  exact ⟨s * t, (hs.mul hp ht).mono hp (by omega), by ring⟩

theorem near_round (h : Nearest p fl) (hp : 1 ≤ p) (x : ℝ)   : Near p 1 (fl x) x := near_fl h hp x

theorem Near.nonneg (hp : 1 ≤ p) {K : ℕ} {a b : ℝ} (h : Near p K a b) (hb : 0 ≤ b) : 0 ≤ a := by
  obtain ⟨t, ht, rfl⟩ := h
  exact mul_nonneg hb (ht.pos hp).le

theorem Near.pos (hp : 1 ≤ p) {K : ℕ} {a b : ℝ} (h : Near p K a b) (hb : 0 < b) : 0 < a := by
  obtain ⟨t, ht, rfl⟩ := h
  exact mul_pos hb (ht.pos hp)

/-- More bits make smaller errors. -/
theorem Near.bits (hp : 1 ≤ p) (hpq : p ≤ q) {K : ℕ} {a b : ℝ} (h : Near q K a b) : Near p K a b := by
  obtain ⟨t, ht, rfl⟩ := h
  have h1 : (1 : ℝ) - (2 ^ p)⁻¹ ≤ 1 - (2 ^ q)⁻¹ := by
    have : ((2 : ℝ) ^ q)⁻¹ ≤ (2 ^ p)⁻¹ := inv_anti₀ (by positivity) (pow_le_pow_right₀ (by norm_num) hpq)
    linarith
  have h2 := pow_le_pow_left₀ (unit_pos hp).le h1 K
  exact ⟨t, ⟨h2.trans ht.1, (mul_le_mul_of_nonneg_left h2 (ht.pos (hp.trans hpq)).le).trans ht.2⟩, rfl⟩

theorem Near.add (hp : 1 ≤ p) {K : ℕ} {a b c d : ℝ} (h : Near p K a b) (h' : Near p K c d) (hb : 0 ≤ b) (hd : 0 ≤ d) :
    Near p K (a + c) (b + d) := by
  obtain ⟨t, ht, rfl⟩ := h
  obtain ⟨s, hs, rfl⟩ := h'
  rcases (add_nonneg hb hd).eq_or_lt' with h0 | h0
  · have hb0 : b = 0 := by linarith
    have hd0 : d = 0 := by linarith
    exact ⟨1, NearOne.one.mono hp (Nat.zero_le K), by rw [hb0, hd0]; ring⟩
  · refine ⟨(b * t + d * s) / (b + d), ⟨?_, ?_⟩, by field_simp⟩
    · rw [le_div_iff₀ h0]
      nlinarith [mul_le_mul_of_nonneg_left ht.1 hb, mul_le_mul_of_nonneg_left hs.1 hd]
    · rw [div_mul_eq_mul_div, div_le_one h0]
      nlinarith [mul_le_mul_of_nonneg_left ht.2 hb, mul_le_mul_of_nonneg_left hs.2 hd]

theorem Near.div (hp : 1 ≤ p) {K L : ℕ} {a b c d : ℝ} (h : Near p K a b) (h' : Near p L c d) : Near p (K + L) (a / c) (b / d) := by
  obtain ⟨t, ht, rfl⟩ := h
  obtain ⟨s, hs, rfl⟩ := h'
  have s0 := hs.pos hp
  have hi : NearOne p L s⁻¹ := by
    refine ⟨?_, ?_⟩
    · rw [← one_div s, le_div_iff₀ s0, mul_comm]; exact hs.2
    · rw [inv_mul_le_iff₀ s0, mul_one]; exact hs.1
  exact ⟨t * s⁻¹, ht.mul hp hi, by rw [mul_div_mul_comm, div_eq_mul_inv t]⟩

theorem near_sum (hp : 1 ≤ p) {K : ℕ} {l l' : List ℝ} (hl : List.Forall₂ (Near p K) l l') (hn : ∀ x ∈ l', 0 ≤ x) :
    Near p K l.sum l'.sum := by
  induction hl with
  | nil => exact (Near.refl 0).mono hp (Nat.zero_le K)
  | cons h _ ih =>
    rw [List.sum_cons, List.sum_cons]
    exact h.add hp (ih fun x hx => hn x (List.mem_cons_of_mem _ hx)) (hn _ List.mem_cons_self)
      (List.sum_nonneg fun x hx => hn x (List.mem_cons_of_mem _ hx))

/-- A sum of non-negative numbers, in any order. -/
theorem flFold_near (h : Nearest p fl) (hp : 1 ≤ p) {l : List ℝ} {r : ℝ} (hf : FlFold (fun a b => fl (a + b)) 0 l r)
    (hl : ∀ x ∈ l, IsFl p x) (hn : ∀ x ∈ l, 0 ≤ x) : IsFl p r ∧ Near p l.length r l.sum := by
  obtain ⟨h1, h2⟩ := flFold_upper h hp hf hl
  have h3 := flFold_lower h hp hf hl hn
  have e : (l.map fun x => |x|) = l := by
    conv_rhs => rw [← List.map_id l]
    exact List.map_congr_left fun x hx => abs_of_nonneg (hn x hx)
  rw [e] at h2
  have hs : 0 ≤ l.sum := List.sum_nonneg hn
  refine ⟨h1, ?_⟩
  rcases hs.eq_or_lt' with h0 | h0
  · rw [h0, mul_zero] at h2
    have : r = 0 := abs_eq_zero.mp (le_antisymm h2 (abs_nonneg r))
    rw [this, h0]
    exact (Near.refl 0).mono hp (Nat.zero_le _)
  · have u0 := unit_pos hp
    refine ⟨r / l.sum, ⟨?_, ?_⟩, by field_simp⟩
    · rw [le_div_iff₀ h0]; exact h3
    · rw [div_mul_eq_mul_div, div_le_one h0]
      have hk : (1 + ((2 : ℝ) ^ p)⁻¹) ^ l.length * (1 - ((2 : ℝ) ^ p)⁻¹) ^ l.length ≤ 1 := by
        rw [← mul_pow]
        exact pow_le_one₀ (mul_nonneg (by positivity) u0.le) (by nlinarith [sq_nonneg (((2 : ℝ) ^ p)⁻¹)])
      have pk := pow_pos u0 l.length
      calc r * (1 - ((2 : ℝ) ^ p)⁻¹) ^ l.length ≤ ((1 + ((2 : ℝ) ^ p)⁻¹) ^ l.length * l.sum) * (1 - ((2 : ℝ) ^ p)⁻¹) ^ l.length :=
            mul_le_mul_of_nonneg_right ((le_abs_self r).trans h2) pk.le
        _ = ((1 + ((2 : ℝ) ^ p)⁻¹) ^ l.length * (1 - ((2 : ℝ) ^ p)⁻¹) ^ l.length) * l.sum := by ring
        _ ≤ 1 * l.sum := mul_le_mul_of_nonneg_right hk h0.le
        _ = l.sum := one_mul _

/-! ### The tables -/

theorem flCumsum_length (acc : ℝ) (m : List ℝ) : (flCumsumFrom fl flA acc m).length = m.length := by
  induction m generalizing acc with
  | nil => rfl
  | cons a m ih => simp [flCumsumFrom, ih]

/-- Cumulative sums of non-negative numbers increase. -/
theorem flCumsum_mono (h : Nearest p fl) (hA : Nearest q flA) (acc : ℝ) (hacc : IsFl q acc) (m : List ℝ) (hm : ∀ a ∈ m, 0 ≤ a) :
    (∀ b ∈ flCumsumFrom fl flA acc m, fl acc ≤ b) ∧ (flCumsumFrom fl flA acc m).Pairwise (· ≤ ·) := by
  induction m generalizing acc with
  | nil => simp [flCumsumFrom]
  | cons a m ih =>
    obtain ⟨i1, i2⟩ := ih (flA (acc + a)) (hA.mem _) fun b hb => hm b (List.mem_cons_of_mem _ hb)
    have ha := hm a List.mem_cons_self
    have hle : acc ≤ flA (acc + a) := by
      have := fl_mono hA (show acc ≤ acc + a by linarith)
      rwa [hA.self hacc] at this
    refine ⟨fun b hb => ?_, ?_⟩
    · simp only [flCumsumFrom, List.mem_cons] at hb
      rcases hb with rfl | hb
      · exact fl_mono h hle
      · exact (fl_mono h hle).trans (i1 b hb)
    · rw [flCumsumFrom, List.pairwise_cons]
      exact ⟨i1, i2⟩

/-- Cumulative sums are those of the exact numbers up to roundings. -/
theorem flCumsum_near (h : Nearest p fl) (hA : Nearest q flA) (hp : 1 ≤ p) (hpq : p ≤ q) (K J : ℕ) (hJ : K ≤ J) (acc acc' : ℝ)
    (ha : Near p J acc acc') (ha' : 0 ≤ acc') (m m' : List ℝ) (hm : List.Forall₂ (Near p K) m m') (hn : ∀ a ∈ m', 0 ≤ a) (L : ℕ)
    (hL : J + m.length + 1 ≤ L) : List.Forall₂ (Near p L) (flCumsumFrom fl flA acc m) (cumsumFrom acc' m') := by
  induction hm generalizing acc acc' J with
  | nil => exact .nil
  | @cons a a' m m' h1 h2 ih =>
    have n1 := hn a' List.mem_cons_self
    have hstep : Near p (J + 1) (flA (acc + a)) (acc' + a') :=
      (((near_round hA (hp.trans hpq) _).bits hp hpq).trans hp (ha.add hp (h1.mono hp hJ) ha' n1)).mono hp (by omega)
    simp only [List.length_cons] at hL
    refine .cons (((near_round h hp _).trans hp hstep).mono hp (by omega)) ?_
    exact ih (J + 1) (by omega) _ _ hstep (by linarith) (fun b hb => hn b (List.mem_cons_of_mem _ hb)) (by omega)

theorem length_indices (shape : List ℕ) : (indices shape).length = shape.prod := by
  induction shape with
  | nil => rfl
  | cons s sh ih => simp [indices, List.length_flatMap, ih, List.sum_replicate]

theorem near_at {K : ℕ} {a b : List ℝ} (h : List.Forall₂ (Near p K) a b) (j : ℕ) (hj : j < b.length) : Near p K (at' a j) (at' b j) := by
  have hl := h.length_eq
  rw [at'_eq _ _ (by omega), at'_eq _ _ hj]
  exact (List.forall₂_iff_get.mp h).2 j (by omega) hj

/-- The rounded marginal probabilities. -/
theorem flMprob_near (h : Nearest p fl) (hp : 1 ≤ p) (F : List ℕ → ℝ) (pre : List ℕ) (n : ℕ) (hn : 2 ≤ n)
    (hF : ∀ idx, InShape (pre ++ [n]) idx → 0 ≤ F idx) (m : List ℝ) (hm : FlMprob fl F pre n [] m) :
    List.Forall₂ (Near p (pre.prod + 2)) m (mprob F pre n []) ∧ (∀ a ∈ mprob F pre n [], 0 ≤ a) := by
  obtain ⟨hl, hm⟩ := hm
  have pos : ∀ i ∈ indices pre, ∀ k < n, 0 ≤ F (i ++ [k]) := fun i hi k hk =>
    hF _ (List.rel_append (mem_indices pre i hi) (.cons hk .nil))
  have half : ∀ x : ℝ, IsFl p x → fl (x / 2) = x / 2 := fun x hx => by
    have := isFl_scale hx (-1)
    rw [show x / 2 = x * (2 : ℝ) ^ (-1 : ℤ) by rw [zpow_neg_one]; rfl]
    exact h.self this
  constructor
  · rw [List.forall₂_iff_get]
    refine ⟨by simp [mprob, hl], fun j h1 h2 => ?_⟩
    have hj : j < n - 1 := by omega
    have hf := hm j hj
    obtain ⟨-, h3⟩ := flFold_near h hp hf
      (fun x hx => by obtain ⟨i, -, rfl⟩ := List.mem_map.mp hx; exact h.mem _)
      (fun x hx => by
        obtain ⟨i, hi, rfl⟩ := List.mem_map.mp hx
        exact fl_nonneg h (div_nonneg (fl_nonneg h (add_nonneg (pos i hi j (by omega)) (pos i hi (j + 1) (by omega)))) two_pos.le))
    have h4 : Near p 2 ((indices pre).map fun i => fl (fl (F (i ++ j :: []) + F (i ++ (j + 1) :: [])) / 2)).sum
        ((indices pre).map fun i => (F (i ++ j :: []) + F (i ++ (j + 1) :: [])) / 2).sum := by
      refine near_sum hp ?_ ?_
      · rw [List.forall₂_map_left_iff, List.forall₂_map_right_iff]
        refine List.forall₂_same.mpr fun i hi => ?_
        rw [half _ (h.mem _)]
        obtain ⟨t, ht, e⟩ := near_round h hp (F (i ++ j :: []) + F (i ++ (j + 1) :: []))
        exact ⟨t, ht.mono hp (by norm_num), by rw [e]; ring⟩
      · intro x hx
        obtain ⟨i, hi, rfl⟩ := List.mem_map.mp hx
        exact div_nonneg (add_nonneg (pos i hi j (by omega)) (pos i hi (j + 1) (by omega))) two_pos.le
    have h5 := (h3.trans hp h4).mono hp (L := pre.prod + 2) (by rw [List.length_map, length_indices])
    rw [at'_eq _ _ (by omega)] at h5
    simpa [mprob] using h5
  · intro a ha
    obtain ⟨j, hj, rfl⟩ := List.mem_map.mp ha
    have hj' : j < n - 1 := by simpa using hj
    refine List.sum_nonneg fun b hb => ?_
    obtain ⟨i, hi, rfl⟩ := List.mem_map.mp hb
    exact div_nonneg (add_nonneg (pos i hi j (by omega)) (pos i hi (j + 1) (by omega))) two_pos.le

theorem near_getLastD {K : ℕ} {a b : List ℝ} (h : List.Forall₂ (Near p K) a b) (hK : Near p K 0 0) :
    Near p K (a.getLastD 0) (b.getLastD 0) := by
  have : ∀ x y, Near p K x y → Near p K (a.getLastD x) (b.getLastD y) := by
    induction h with
    | nil => exact fun x y hxy => hxy
    | cons h1 _ ih => exact fun x y _ => by rw [List.getLastD_cons, List.getLastD_cons]; exact ih _ _ h1
  exact this 0 0 hK

/-! ### C159 -/

/-- The computed cumulative probabilities start at 0, end at exactly 1, never decrease, and each is right up to a number of
roundings. -/
theorem C159_table (h : Nearest p fl) (hA : Nearest q flA) (hp : 2 ≤ p) (hpq : p ≤ q) (gs : List (List ℝ)) (g : List ℝ)
    (hg : 2 ≤ g.length) (F : List ℕ → ℝ) (hF : Probs ((gs ++ [g]).map List.length) F) (m : List ℝ)
    (hm : FlMprob fl F (gs.map List.length) g.length [] m) :
    IsCdf g.length (flCprobs fl flA m) ∧ ∀ j < g.length,
      Near p (2 * (gs.map List.length).prod + 2 * g.length + 5) (at' (flCprobs fl flA m) j)
        (marginalCdf F (gs.map List.length) g.length [] j) := by
  have hp1 : 1 ≤ p := by omega
  obtain ⟨hn, hpos⟩ := flMprob_near h hp1 F _ _ hg (fun idx hi => hF.1 idx (by simpa using hi)) m hm
  have htot := hF.2 (gs.map List.length) g.length [] (by simp) [] .nil
  rw [← mprob_sum] at htot
  set pre := gs.map List.length
  set n := g.length
  have hlm : m.length = n - 1 := hm.1
  set K := pre.prod + 2 with hK
  have hc := flCumsum_near h hA hp1 hpq K K le_rfl 0 0 ((Near.refl 0).mono hp1 (Nat.zero_le K)) le_rfl m _ hn hpos (K + n) (by omega)
  have hne : mprob F pre n [] ≠ [] := by intro e; rw [e] at htot; simp at htot
  have hlast : (cumsumFrom 0 (mprob F pre n [])).getLastD 0 = (mprob F pre n []).sum := by rw [cumsum_last 0 _ hne, zero_add]
  have hD := near_getLastD hc ((Near.refl 0).mono hp1 (Nat.zero_le _))
  rw [hlast] at hD
  have hDpos : 0 < (flCumsumFrom fl flA 0 m).getLastD 0 := hD.pos hp1 htot
  have hmn : ∀ a ∈ m, 0 ≤ a := by
    intro a ha
    obtain ⟨j, hj, rfl⟩ := List.mem_iff_getElem.mp ha
    have hj' : j < (mprob F pre n []).length := by rw [← hn.length_eq]; exact hj
    exact ((List.forall₂_iff_get.mp hn).2 j hj hj').nonneg hp1 (hpos _ (List.getElem_mem hj'))
  obtain ⟨m1, m2⟩ := flCumsum_mono h hA 0 isFl_zero m hmn
  rw [fl_zero h] at m1
  have hlc : (flCumsumFrom fl flA 0 m).length = n - 1 := by rw [flCumsum_length, hlm]
  refine ⟨⟨by simp [flCprobs, flCumsum_length, hlm]; omega, rfl, ?_, ?_⟩, ?_⟩
  · have e : n - 1 = (n - 2) + 1 := by omega
    rw [e, flCprobs, at'_cons_succ, at'_eq _ _ (by simp; omega), List.getElem_map]
    have : (flCumsumFrom fl flA 0 m)[n - 2]'(by omega) = (flCumsumFrom fl flA 0 m).getLastD 0 := by
      rw [List.getLastD_eq_getLast?, List.getLast?_eq_getElem?, List.getElem?_eq_getElem (by omega)]
      simp [hlc, show n - 1 - 1 = n - 2 by omega]
    rw [this, div_self hDpos.ne', h.self (isFl_one hp1)]
  · rw [flCprobs, List.pairwise_cons]
    refine ⟨fun b hb => ?_, ?_⟩
    · obtain ⟨c, hc', rfl⟩ := List.mem_map.mp hb
      exact fl_nonneg h (div_nonneg (m1 c hc') hDpos.le)
    · rw [List.pairwise_map]
      exact m2.imp fun hab => fl_mono h (div_le_div_of_nonneg_right hab hDpos.le)
  · intro j hj
    rw [← C63_marginal F pre n hg [] j hj]
    have : List.Forall₂ (Near p (2 * pre.prod + 2 * n + 5)) (flCprobs fl flA m) (cprobs (mprob F pre n [])) := by
      refine .cons ((Near.refl 0).mono hp1 (Nat.zero_le _)) ?_
      rw [List.forall₂_map_left_iff, List.forall₂_map_right_iff]
      refine hc.imp fun a b hab => ?_
      rw [hlast]
      exact ((near_round h hp1 _).trans hp1 (hab.div hp1 hD)).mono hp1 (by omega)
    exact near_at this j (by rw [← this.length_eq]; simp [flCprobs, flCumsum_length, hlm]; omega)

/-- The value lies in the cell whose cumulative probabilities enclose `u`, except for an excess of at most five roundings of its
width and the last rounding; the probability by which the code divides is not zero. -/
theorem C159_cell_partial (h : Nearest p fl) (hA : Nearest q flA) (hp : 2 ≤ p) (hpq : p ≤ q) (gs : List (List ℝ)) (g : List ℝ)
    (hg : 2 ≤ g.length) (hs : g.Pairwise (· < ·)) (hfl : ∀ y ∈ g, IsFl p y) (F : List ℕ → ℝ)
    (hF : Probs ((gs ++ [g]).map List.length) F) (u r : ℝ) (h0 : 0 ≤ u) (h1 : u < 1) (hr : FlIcdf0 fl flA (gs ++ [g]) F u r) :
    ∃ m, FlMprob fl F (gs.map List.length) g.length [] m ∧ ∃ i, i + 1 < g.length ∧
      at' (flCprobs fl flA m) i ≤ u ∧ u < at' (flCprobs fl flA m) (i + 1) ∧
      fl (at' (flCprobs fl flA m) (i + 1) - at' (flCprobs fl flA m) i) ≠ 0 ∧
      at' g i ≤ r ∧ ∃ z, z ≤ at' g i + (at' g (i + 1) - at' g i) / (1 - (2 ^ p)⁻¹) ^ 5 ∧ r = fl z := by
  have hp1 : 1 ≤ p := by omega
  simp only [FlIcdf0, List.reverse_append, List.reverse_cons, List.reverse_nil, List.nil_append, List.singleton_append,
    List.reverse_reverse] at hr
  obtain ⟨m, hm, rfl⟩ := hr
  obtain ⟨hc, -⟩ := C159_table h hA hp hpq gs g hg F hF m hm
  set T := flCprobs fl flA m
  have hlen := hc.length
  obtain ⟨b0, b1, b2, -, -⟩ := C51_bracket T hc.mono (by omega) u
  have c1 := b1 (by rw [hc.first]; exact h0)
  have c2 := b2 (by rw [hlen, hc.last]; exact h1)
  refine ⟨m, hm, projectOne T u, by omega, c1, c2, ?_⟩
  rw [flLinear1d_at T g hlen _ b0 u rfl]
  set i := projectOne T u
  have hd : 0 < at' T (i + 1) - at' T i := by linarith
  have hdf := fl_pos h hp hd
  have hgp : 0 < at' g (i + 1) - at' g i := by linarith [sorted_lt g hs i (i + 1) (by omega) (by omega)]
  refine ⟨hdf.ne', ?_, _, ?_, rfl⟩
  · have : at' g i ≤ fl (at' g i) := (h.self (hfl _ (at'_mem _ _ (by omega)))).ge
    refine this.trans (fl_mono h (le_add_of_nonneg_right (fl_nonneg h (mul_nonneg (fl_nonneg h (by linarith)) ?_))))
    exact fl_nonneg h (div_nonneg (fl_nonneg h hgp.le) hdf.le)
  · have k1 : Near p 1 (fl (u - at' T i)) (u - at' T i) := near_round h hp1 _
    have k2 : Near p 3 (fl (fl (at' g (i + 1) - at' g i) / fl (at' T (i + 1) - at' T i)))
        ((at' g (i + 1) - at' g i) / (at' T (i + 1) - at' T i)) :=
      ((near_round h hp1 _).trans hp1 ((near_round h hp1 _).div hp1 (near_round h hp1 _))).mono hp1 (by norm_num)
    obtain ⟨t, ht, e1⟩ := k1
    obtain ⟨s, hs', e2⟩ := k2
    obtain ⟨w, hw, e3⟩ := near_round h hp1 (fl (u - at' T i) * fl (fl (at' g (i + 1) - at' g i) / fl (at' T (i + 1) - at' T i)))
    have hall : NearOne p 5 (t * s * w) := (ht.mul hp1 hs').mul hp1 hw
    have p5 := pow_pos (unit_pos hp1) 5
    rw [e3, e1, e2]
    have hx : (u - at' T i) * ((at' g (i + 1) - at' g i) / (at' T (i + 1) - at' T i)) ≤ at' g (i + 1) - at' g i := by
      rw [mul_div_assoc', div_le_iff₀ hd, mul_comm]
      exact mul_le_mul_of_nonneg_left (by linarith) hgp.le
    have hx0 : 0 ≤ (u - at' T i) * ((at' g (i + 1) - at' g i) / (at' T (i + 1) - at' T i)) :=
      mul_nonneg (by linarith) (div_nonneg hgp.le hd.le)
    have hle : t * s * w ≤ 1 / (1 - (2 ^ p)⁻¹) ^ 5 := by rw [le_div_iff₀ p5]; exact hall.2
    have := mul_le_mul hx hle (hall.pos hp1).le hgp.le
    calc at' g i + (u - at' T i) * t * ((at' g (i + 1) - at' g i) / (at' T (i + 1) - at' T i) * s) * w
        = at' g i + (u - at' T i) * ((at' g (i + 1) - at' g i) / (at' T (i + 1) - at' T i)) * (t * s * w) := by ring
      _ ≤ at' g i + (at' g (i + 1) - at' g i) * (1 / (1 - (2 ^ p)⁻¹) ^ 5) := by linarith
      _ = _ := by ring

/-- No sample lies below the grid. -/
theorem C159_lower (h : Nearest p fl) (hA : Nearest q flA) (hp : 2 ≤ p) (hpq : p ≤ q) (gs : List (List ℝ)) (g : List ℝ)
    (hg : 2 ≤ g.length) (hs : g.Pairwise (· < ·)) (hfl : ∀ y ∈ g, IsFl p y) (F : List ℕ → ℝ)
    (hF : Probs ((gs ++ [g]).map List.length) F) (u r : ℝ) (h0 : 0 ≤ u) (h1 : u < 1) (hr : FlIcdf0 fl flA (gs ++ [g]) F u r) :
    at' g 0 ≤ r := by
  obtain ⟨m, -, i, hi, -, -, -, hle, -⟩ := C159_cell_partial h hA hp hpq gs g hg hs hfl F hF u r h0 h1 hr
  exact (sorted_le g (strict_weak hs) 0 i (by omega) (by omega)).trans hle

/-- At a tabulated cumulative probability followed by a larger one the value is the grid point, exactly. -/
theorem C159_quantile (h : Nearest p fl) (hA : Nearest q flA) (hp : 2 ≤ p) (hpq : p ≤ q) (gs : List (List ℝ)) (g : List ℝ)
    (hg : 2 ≤ g.length) (hfl : ∀ y ∈ g, IsFl p y) (F : List ℕ → ℝ) (hF : Probs ((gs ++ [g]).map List.length) F) (m : List ℝ)
    (hm : FlMprob fl F (gs.map List.length) g.length [] m) (j : ℕ) (hj : j + 1 < g.length)
    (hlt : at' (flCprobs fl flA m) j < at' (flCprobs fl flA m) (j + 1)) :
    flLinear1d fl (flCprobs fl flA m) g (at' (flCprobs fl flA m) j) = at' g j := by
  obtain ⟨hc, -⟩ := C159_table h hA hp hpq gs g hg F hF m hm
  have hlen := hc.length
  rw [flLinear1d_at _ g hlen j (by omega) _ (project_eq _ hc.mono _ j (by omega) (.inl le_rfl) (.inl hlt)),
    sub_self, fl_zero h, zero_mul, fl_zero h, add_zero]
  exact h.self (hfl _ (at'_mem _ _ (by omega)))

/-- Within a cell larger uniforms do not give smaller values. -/
theorem C159_monotone_partial (h : Nearest p fl) (hA : Nearest q flA) (hp : 2 ≤ p) (hpq : p ≤ q) (gs : List (List ℝ)) (g : List ℝ)
    (hg : 2 ≤ g.length) (hs : g.Pairwise (· < ·)) (F : List ℕ → ℝ) (hF : Probs ((gs ++ [g]).map List.length) F) (m : List ℝ)
    (hm : FlMprob fl F (gs.map List.length) g.length [] m) (i : ℕ) (hi : i + 1 < g.length) (u v : ℝ)
    (hu : at' (flCprobs fl flA m) i ≤ u) (huv : u ≤ v) (hv : v < at' (flCprobs fl flA m) (i + 1)) :
    flLinear1d fl (flCprobs fl flA m) g u ≤ flLinear1d fl (flCprobs fl flA m) g v := by
  obtain ⟨hc, -⟩ := C159_table h hA hp hpq gs g hg F hF m hm
  have hlen := hc.length
  rw [flLinear1d_at _ g hlen i (by omega) u (project_eq _ hc.mono _ i (by omega) (.inl hu) (.inl (by linarith))),
    flLinear1d_at _ g hlen i (by omega) v (project_eq _ hc.mono _ i (by omega) (.inl (by linarith)) (.inl hv))]
  have hm := fl_mono h
  have hgp := sorted_lt g hs i (i + 1) (by omega) hi
  refine hm (add_le_add_right (hm (mul_le_mul_of_nonneg_right (hm (by linarith)) ?_)) _)
  exact fl_nonneg h (div_nonneg (fl_nonneg h (by linarith)) (fl_nonneg h (by linarith)))

/-! ### A sample above the grid -/

/-- Sums of small natural numbers are exact. -/
theorem flFold_nat (h : Nearest p fl) (hp : 1 ≤ p) {l : List ℝ} {r : ℝ} (hf : FlFold (fun a b => fl (a + b)) 0 l r)
    (hl : ∀ x ∈ l, ∃ n : ℕ, x = n) (hs : l.sum ≤ 2 ^ p) : r = l.sum := by
  have nat : ∀ l : List ℝ, (∀ x ∈ l, ∃ n : ℕ, x = n) → ∃ n : ℕ, l.sum = n := by
    intro l
    induction l with
    | nil => exact fun _ => ⟨0, by simp⟩
    | cons a l ih =>
      intro hl
      obtain ⟨n, e⟩ := ih fun x hx => hl x (List.mem_cons_of_mem _ hx)
      obtain ⟨k, rfl⟩ := hl a List.mem_cons_self
      exact ⟨k + n, by rw [List.sum_cons, e]; push_cast; ring⟩
  induction hf with
  | nil => rfl
  | single x => simp
  | @node l r a b _ _ ih1 ih2 =>
    have a1 : ∀ x ∈ l, ∃ n : ℕ, x = n := fun x hx => hl x (List.mem_append_left _ hx)
    have a2 : ∀ x ∈ r, ∃ n : ℕ, x = n := fun x hx => hl x (List.mem_append_right _ hx)
    obtain ⟨k1, e1⟩ := nat l a1
    obtain ⟨k2, e2⟩ := nat r a2
    rw [List.sum_append, e1, e2] at hs
    have z1 : (0 : ℝ) ≤ k1 := Nat.cast_nonneg _
    have z2 : (0 : ℝ) ≤ k2 := Nat.cast_nonneg _
    rw [ih1 a1 (by rw [e1]; linarith), ih2 a2 (by rw [e2]; linarith), List.sum_append, e1, e2]
    have := h.self (isFl_int hp (m := ((k1 + k2 : ℕ) : ℤ)) (by rw [abs_of_nonneg (by positivity)]; exact_mod_cast hs) 0)
    simpa using this
  | perm hp' _ ih =>
    rw [← hp'.sum_eq] at hs ⊢
    exact ih (fun x hx => hl x (hp'.subset hx)) hs

/-- Probabilities of a grid of 2 × 3 points: 1, 1 and 5 along the last dimension. -/
def exF : List ℕ → ℝ := fun idx => if idx.getD 1 0 = 2 then 5 else 1

theorem exF_probs (y : ℝ) : Probs (([[0, 1]] ++ [[-3, -2, y]] : List (List ℝ)).map List.length) exF := by
  refine ⟨fun idx _ => by unfold exF; split_ifs <;> norm_num, ?_⟩
  intro pre n post h idx hidx
  match pre with
  | [] =>
    simp only [List.map_cons, List.map_nil, List.length_cons, List.length_nil, List.nil_append, List.cons_append,
      List.cons.injEq] at h
    obtain ⟨rfl, rfl⟩ := h
    cases hidx with
    | @cons i _ l _ hi hl =>
      cases hl
      norm_num [trapezoid, marginal, indices, Finset.sum_range_succ, exF]
      split_ifs <;> norm_num
  | [a] =>
    simp only [List.map_cons, List.map_nil, List.length_cons, List.length_nil, List.nil_append, List.cons_append,
      List.cons.injEq] at h
    obtain ⟨rfl, rfl, rfl⟩ := h
    cases hidx
    norm_num [trapezoid, marginal, indices, exF, Finset.sum_range_succ, List.range_succ]
  | a :: b :: c :: pre => simp at h
  | [a, b] => simp at h

/-- Double precision: a sample from the grid -3, -2, 0.1 (cumulative probabilities 0, 1/4, 1) may lie above 0.1: for the largest
uniform below one it is 0.1 + 6·2^-56. -/
theorem C159_inside_fails (h : Nearest 53 fl) (hA : Nearest q flA) (hq : 53 ≤ q) :
    (∃ r, FlIcdf0 fl flA [[0, 1], [-3, -2, fl (1 / 10)]] exF (1 - (2 ^ 53)⁻¹) r) ∧
    ∀ r, FlIcdf0 fl flA [[0, 1], [-3, -2, fl (1 / 10)]] exF (1 - (2 ^ 53)⁻¹) r → r = fl (1 / 10) + 6 / 2 ^ 56 := by
  have y0 : fl (1 / 10) = 7205759403792794 / 2 ^ 56 := by
    have := h.eq_of_half_abs (x := 1 / 10) 7205759403792794 (-56) (by norm_num) (by norm_num) (by norm_num [abs_lt])
    norm_num at this ⊢; exact this
  constructor
  · have hex : ∀ j, ∃ a, FlFold (fun a b => fl (a + b)) 0
        ((indices [2]).map fun i => fl (fl (exF (i ++ j :: []) + exF (i ++ (j + 1) :: [])) / 2)) a := fun j => flFold_exists _ _ _
    choose a ha using hex
    refine ⟨_, (List.range 2).map a, ⟨by simp, fun j hj => ?_⟩, rfl⟩
    have hj : j < 2 := hj
    have := ha j
    rw [at'_eq _ _ (by simpa using hj)]
    simpa using this
  · rintro r ⟨m, ⟨hl, hm⟩, rfl⟩
    have i : ∀ (m : ℤ) (e : ℤ), |m| ≤ 2 ^ 53 → fl (m * (2 : ℝ) ^ e) = m * (2 : ℝ) ^ e := fun m e hm =>
      h.self (isFl_int (by norm_num) hm e)
    have f1 : fl 1 = 1 := h.self (isFl_one (by norm_num))
    have f2 : fl 2 = 2 := by have := i 2 0 (by norm_num); norm_num at this ⊢; exact this
    have f3 : fl 3 = 3 := by have := i 3 0 (by norm_num); norm_num at this ⊢; exact this
    have f6 : fl 6 = 6 := by have := i 6 0 (by norm_num); norm_num at this ⊢; exact this
    have f8 : fl 8 = 8 := by have := i 8 0 (by norm_num); norm_num at this ⊢; exact this
    have a2 : flA 2 = 2 := hA.self (by simpa using isFl_int (p := q) (by omega) (m := 2) (by
      have : (2 : ℤ) ^ 53 ≤ 2 ^ q := pow_le_pow_right₀ (by norm_num) hq
      rw [abs_of_pos (by norm_num)]; norm_num at this; omega) 0)
    have a8 : flA 8 = 8 := hA.self (by simpa using isFl_int (p := q) (by omega) (m := 8) (by
      have : (2 : ℤ) ^ 53 ≤ 2 ^ q := pow_le_pow_right₀ (by norm_num) hq
      rw [abs_of_pos (by norm_num)]; norm_num at this; omega) 0)
    have m0 : at' m 0 = 2 := by
      have := flFold_nat h (by norm_num) (hm 0 (by simp)) (by
        intro x hx
        refine ⟨1, ?_⟩
        simp [indices, exF, List.range_succ] at hx
        norm_num [hx, f2, f1]) (by norm_num [indices, exF, List.range_succ, f2, f1])
      rw [this]
      norm_num [indices, exF, List.range_succ, f2, f1]
    have f4 : fl (1 + 5) = 6 := by norm_num [f6]
    have m1 : at' m 1 = 6 := by
      have := flFold_nat h (by norm_num) (hm 1 (by simp)) (by
        intro x hx
        refine ⟨3, ?_⟩
        simp [indices, exF, List.range_succ] at hx
        norm_num [f6, f3] at hx
        norm_num [hx]) (by norm_num [indices, exF, List.range_succ, f6, f3])
      rw [this]
      norm_num [indices, exF, List.range_succ, f6, f3]
    have hme : m = [2, 6] := by
      match m, hl with
      | [a, b], _ => simp [at'] at m0 m1; rw [m0, m1]
    subst hme
    have q4 : fl (1 / 4) = 1 / 4 := by have := i 1 (-2) (by norm_num); norm_num at this ⊢; exact this
    have hT : flCprobs fl flA [2, 6] = [0, 1 / 4, 1] := by
      norm_num [flCprobs, flCumsumFrom, a2, a8, f2, f8, q4, f1]
    rw [hT, y0]
    have hpick : projectOne [0, 1 / 4, 1] (1 - (2 ^ 53)⁻¹ : ℝ) = 1 :=
      project_eq _ (by norm_num) _ 1 (by simp) (.inl (by norm_num [at'])) (.inl (by norm_num [at']))
    rw [flLinear1d_at _ _ (by simp) 1 (by simp) _ hpick]
    have g1 : fl (6755399441055743 / 9007199254740992) = 6755399441055743 / 9007199254740992 := by
      have := i 6755399441055743 (-53) (by norm_num); norm_num at this ⊢; exact this
    have g2 : fl (3 / 4) = 3 / 4 := by have := i 3 (-2) (by norm_num); norm_num at this ⊢; exact this
    have g3 : fl (75660473739824333 / 36028797018963968) = 4728779608739021 / 2251799813685248 := by
      have := h.eq_of_half_abs (x := 75660473739824333 / 36028797018963968) 4728779608739021 (-51) (by norm_num) (by norm_num)
        (by norm_num [abs_lt])
      norm_num at this ⊢; exact this
    have g4 : fl (4728779608739021 / 1688849860263936) = 6305039478318695 / 2251799813685248 := by
      have := h.eq_of_half_abs (x := 4728779608739021 / 1688849860263936) 6305039478318695 (-51) (by norm_num) (by norm_num)
        (by norm_num [abs_lt])
      norm_num at this ⊢; exact this
    have g5 : fl (42593060167668505638489414015385 / 20282409603651670423947251286016) = 4728779608739021 / 2251799813685248 := by
      have := h.eq_of_half_abs (x := 42593060167668505638489414015385 / 20282409603651670423947251286016) 4728779608739021 (-51)
        (by norm_num) (by norm_num) (by norm_num [abs_lt])
      norm_num at this ⊢; exact this
    have g6 : fl (225179981368525 / 2251799813685248) = 225179981368525 / 2251799813685248 := by
      have := i 225179981368525 (-51) (by norm_num); norm_num at this ⊢; exact this
    norm_num [at', g1, g2, g3, g4, g5, g6]

/-- The hypotheses of `C159_table`, `C159_cell_partial`, `C159_lower`, `C159_quantile`, `C159_monotone_partial` are met. -/
example (h : Nearest 53 fl) (r : ℝ) (hr : FlIcdf0 fl fl [[0, 1], [-3, -2, fl (1 / 10)]] exF (1 / 2) r) : -3 ≤ r := by
  have y0 : 0 < fl (1 / 10) := fl_pos h (by norm_num) (by norm_num)
  exact C159_lower h h (by norm_num) le_rfl [[0, 1]] [-3, -2, fl (1 / 10)] (by simp) (by
    simp only [List.pairwise_cons, List.mem_cons, List.not_mem_nil, or_false, forall_eq_or_imp, forall_eq]
    exact ⟨⟨by norm_num, by linarith⟩, by linarith, by simp, by simp⟩) (by
    simp only [List.mem_cons, List.not_mem_nil, or_false, forall_eq_or_imp, forall_eq]
    exact ⟨by simpa using isFl_int (by norm_num) (m := -3) (by norm_num) 0, by simpa using isFl_int (by norm_num) (m := -2) (by norm_num) 0,
      h.mem _⟩) exF (exF_probs _) (1 / 2) r (by norm_num) (by norm_num) hr

end Verif.Interp
