import Verif.Interp.Nd

/-! # C63: distributions on a grid -/

namespace Verif.Interp

theorem cumsum_length (acc : ℝ) (m : List ℝ) : (cumsumFrom acc m).length = m.length := by
  induction m generalizing acc with
  | nil => rfl
  | cons a m ih => simp [cumsumFrom, ih]

theorem cumsum_last (acc : ℝ) (m : List ℝ) (h : m ≠ []) (d : ℝ) : (cumsumFrom acc m).getLastD d = acc + m.sum := by
  induction m generalizing acc d with
  | nil => simp at h
  | cons a m ih =>
    simp only [cumsumFrom, List.getLastD_cons]
    cases m with
    | nil => simp [cumsumFrom]
    | cons b m => rw [ih (acc + a) (by simp)]; simp only [List.sum_cons]; ring

theorem cumsum_mono (acc : ℝ) (m : List ℝ) (h : ∀ a ∈ m, 0 ≤ a) :
    (∀ b ∈ cumsumFrom acc m, acc ≤ b) ∧ (cumsumFrom acc m).Pairwise (· ≤ ·) := by
  induction m generalizing acc with
  | nil => simp [cumsumFrom]
  | cons a m ih =>
    obtain ⟨i1, i2⟩ := ih (acc + a) fun b hb => h b (List.mem_cons_of_mem _ hb)
    have ha := h a List.mem_cons_self
    refine ⟨?_, ?_⟩
    · intro b hb
      simp only [cumsumFrom, List.mem_cons] at hb
      rcases hb with rfl | hb
      · linarith
      · linarith [i1 b hb]
    · rw [cumsumFrom, List.pairwise_cons]
      exact ⟨i1, i2⟩

/-- A list of cumulative probabilities: from 0 to 1, nondecreasing. -/
structure IsCdf (n : ℕ) (l : List ℝ) : Prop where
  length : l.length = n
  first : at' l 0 = 0
  last : at' l (n - 1) = 1
  mono : l.Pairwise (· ≤ ·)

/-- **C63** the cumulative probabilities start at 0, end at 1 and are nondecreasing, for all non-negative
probabilities that do not all vanish. -/
theorem C63_cprobs (m : List ℝ) (h : ∀ a ∈ m, 0 ≤ a) (hs : 0 < m.sum) : IsCdf (m.length + 1) (cprobs m) := by
  have hne : m ≠ [] := by rintro rfl; simp at hs
  have hl : (cumsumFrom 0 m).getLastD 0 = m.sum := by rw [cumsum_last 0 m hne, zero_add]
  obtain ⟨h1, h2⟩ := cumsum_mono 0 m h
  refine ⟨by simp [cprobs, cumsum_length], rfl, ?_, ?_⟩
  · have hlen : 0 < m.length := List.length_pos_of_ne_nil hne
    have hlen2 := cumsum_length 0 m
    have e : m.length + 1 - 1 = (m.length - 1) + 1 := by omega
    rw [e, cprobs, at'_cons_succ, at'_eq _ _ (by simp; omega), List.getElem_map]
    have : (cumsumFrom 0 m)[m.length - 1]'(by omega) = m.sum := by
      rw [← hl, List.getLastD_eq_getLast?, List.getLast?_eq_getElem?, List.getElem?_eq_getElem (by omega)]
      simp [hlen2]
    rw [this]; simp only [hl]; exact div_self hs.ne'
  · rw [cprobs, hl, List.pairwise_cons]
    refine ⟨?_, ?_⟩
    · intro b hb
      obtain ⟨c, hc, rfl⟩ := List.mem_map.mp hb
      exact div_nonneg (h1 c hc) hs.le
    · rw [List.pairwise_map]
      exact h2.imp fun hab => div_le_div_of_nonneg_right hab hs.le

example : (∀ a ∈ ([1, 0, 3] : List ℝ), 0 ≤ a) ∧ (0 : ℝ) < ([1, 0, 3] : List ℝ).sum := by
  constructor
  · intro a ha; simp at ha; rcases ha with rfl | rfl | rfl <;> norm_num
  · norm_num

theorem linearNd_mono (grids : List (List ℝ)) (hg : Grids grids) (F G : List ℕ → ℝ) (x : List ℝ)
    (hx : x.length = grids.length) (h : ∀ idx, InShape (grids.map List.length) idx → F idx ≤ G idx) :
    linearNd grids (table (grids.map List.length) F) x ≤ linearNd grids (table (grids.map List.length) G) x := by
  have hlen : (locate grids x).length = grids.length := by simp [locate, hx]
  rw [linearNd_eq grids hg x hx, linearNd_eq grids hg x hx]
  have hpos : 0 < cornerSum absolute (locate grids x) fun _ => 1 := lt_of_lt_of_le one_pos (cornerSum_absolute_pos _)
  apply div_le_div_of_nonneg_right _ hpos.le
  exact cornerSum_le absolute (fun t d => abs_nonneg _) _ F G fun d hd => h _ (inShape_corner grids hg x hx d (hlen ▸ hd))

theorem linearNd_const (grids : List (List ℝ)) (hg : Grids grids) (F : List ℕ → ℝ) (x : List ℝ)
    (hx : x.length = grids.length) (v : ℝ) (h : ∀ idx, InShape (grids.map List.length) idx → F idx = v) :
    linearNd grids (table (grids.map List.length) F) x = v :=
  le_antisymm (C53_bounds grids hg F x hx v v fun idx hi => ⟨(h idx hi).ge, (h idx hi).le⟩).2
    (C53_bounds grids hg F x hx v v fun idx hi => ⟨(h idx hi).ge, (h idx hi).le⟩).1

/-- The marginal over the dimensions before: the sum of the probabilities over all their indices. -/
noncomputable def marginal (F : List ℕ → ℝ) (pre idx : List ℕ) (k : ℕ) : ℝ := ((indices pre).map fun i => F (i ++ k :: idx)).sum

/-- The trapezoidal rule with unit steps, up to the `j`-th point. -/
noncomputable def trapezoid (m : ℕ → ℝ) (j : ℕ) : ℝ := ∑ k ∈ Finset.range j, (m k + m (k + 1)) / 2

/-- The cumulative distribution at the grid points of a dimension with `n` points, given the indices in the later ones. -/
noncomputable def marginalCdf (F : List ℕ → ℝ) (pre : List ℕ) (n : ℕ) (idx : List ℕ) (j : ℕ) : ℝ :=
  trapezoid (marginal F pre idx) j / trapezoid (marginal F pre idx) (n - 1)

/-- That distribution interpolated at the later coordinates. -/
noncomputable def conditionalCdf (F : List ℕ → ℝ) (pre : List ℕ) (n : ℕ) (post : List (List ℝ)) (x : List ℝ) : List ℝ :=
  (List.range n).map fun j => linearNd post (table (post.map List.length) fun idx => marginalCdf F pre n idx j) x

/-- In every dimension the cumulative distribution, given the later coordinates, takes the prescribed value. -/
def Inverts (F : List ℕ → ℝ) : List ℕ → List (List ℝ) → List ℝ → List ℝ → Prop
  | _, [], [], [] => True
  | pre, g :: post, t :: x, u :: us => linear1d g (conditionalCdf F pre g.length post x) t = u ∧ Inverts F (pre ++ [g.length]) post x us
  | _, _, _, _ => False

/-- Non-negative probabilities with a positive marginal in every conditional: for every dimension and every index in
the later dimensions. -/
def Probs (shape : List ℕ) (F : List ℕ → ℝ) : Prop :=
  (∀ idx, InShape shape idx → 0 ≤ F idx) ∧
  ∀ pre n post, shape = pre ++ n :: post → ∀ idx, InShape post idx → 0 < trapezoid (marginal F pre idx) (n - 1)

theorem mprob_eq (F : List ℕ → ℝ) (pre : List ℕ) (n : ℕ) (idx : List ℕ) :
    mprob F pre n idx = (List.range (n - 1)).map fun k => (marginal F pre idx k + marginal F pre idx (k + 1)) / 2 := by
  unfold mprob marginal
  apply List.map_congr_left
  intro k _
  induction indices pre with
  | nil => simp
  | cons i l ih => simp only [List.map_cons, List.sum_cons, ih]; ring

theorem mprob_sum (F : List ℕ → ℝ) (pre : List ℕ) (n : ℕ) (idx : List ℕ) :
    (mprob F pre n idx).sum = trapezoid (marginal F pre idx) (n - 1) := by
  rw [mprob_eq, trapezoid]
  induction n - 1 with
  | zero => simp
  | succ m ih => rw [List.range_succ, List.map_append, List.sum_append, Finset.sum_range_succ, ih]; simp

theorem at'_cumsum (acc : ℝ) (m : List ℝ) (j : ℕ) (hj : j < m.length) : at' (cumsumFrom acc m) j = acc + (m.take (j + 1)).sum := by
  induction m generalizing acc j with
  | nil => simp at hj
  | cons a m ih =>
    cases j with
    | zero => simp [cumsumFrom, at']
    | succ j =>
      have := ih (acc + a) j (by simpa using hj)
      simp only [cumsumFrom, at'_cons_succ, this, List.take_succ_cons, List.sum_cons]
      ring

/-- **C63** the tabulated cumulative probabilities are the normalised trapezoidal sums of the marginal. -/
theorem C63_marginal (F : List ℕ → ℝ) (pre : List ℕ) (n : ℕ) (hn : 2 ≤ n) (idx : List ℕ) (j : ℕ) (hj : j < n) :
    at' (cprobs (mprob F pre n idx)) j = marginalCdf F pre n idx j := by
  have hlen : (mprob F pre n idx).length = n - 1 := by simp [mprob]
  have hne : mprob F pre n idx ≠ [] := List.ne_nil_of_length_pos (by omega)
  have hl : (cumsumFrom 0 (mprob F pre n idx)).getLastD 0 = (mprob F pre n idx).sum := by rw [cumsum_last 0 _ hne, zero_add]
  cases j with
  | zero => simp [cprobs, at', marginalCdf, trapezoid]
  | succ j =>
    have hj' : j < (mprob F pre n idx).length := by omega
    have hc : j < (cumsumFrom 0 (mprob F pre n idx)).length := by rw [cumsum_length]; exact hj'
    rw [cprobs, at'_cons_succ, at'_eq _ _ (by simpa using hc), List.getElem_map, ← at'_eq, at'_cumsum _ _ _ hj', zero_add, hl,
      mprob_sum, marginalCdf]
    congr 1
    have : (mprob F pre n idx).take (j + 1) = mprob F pre (j + 2) idx := by
      unfold mprob
      rw [← List.map_take, List.take_range, min_eq_left (by omega)]
      rfl
    rw [this, mprob_sum]
    rfl

theorem mem_indices (shape idx : List ℕ) : idx ∈ indices shape → InShape shape idx := by
  induction shape generalizing idx with
  | nil => simp [indices, InShape]
  | cons s sh ih =>
    intro h
    simp only [indices, List.mem_flatMap, List.mem_map, List.mem_range] at h
    obtain ⟨i, hi, j, hj, rfl⟩ := h
    exact .cons hi (ih j hj)

theorem mprob_cdf (shape : List ℕ) (F : List ℕ → ℝ) (hp : Probs shape F) (pre : List ℕ) (n : ℕ) (post : List ℕ)
    (hsh : shape = pre ++ n :: post) (hn : 2 ≤ n) (idx : List ℕ) (hi : InShape post idx) :
    IsCdf n (cprobs (mprob F pre n idx)) := by
  have h1 : ∀ a ∈ mprob F pre n idx, 0 ≤ a := by
    intro a ha
    obtain ⟨j, hj, rfl⟩ := List.mem_map.mp ha
    have hj' : j < n - 1 := by simpa using hj
    apply List.sum_nonneg
    intro b hb
    obtain ⟨i, hii, rfl⟩ := List.mem_map.mp hb
    have hin := mem_indices pre i hii
    have e : ∀ k, k < n → InShape shape (i ++ k :: idx) := by
      intro k hk
      rw [hsh]
      exact List.rel_append hin (.cons hk hi)
    have a1 := hp.1 _ (e j (by omega))
    have a2 := hp.1 _ (e (j + 1) (by omega))
    linarith
  have h2 := hp.2 pre n post hsh idx hi
  rw [← mprob_sum] at h2
  have h3 := C63_cprobs _ h1 h2
  have hl : (mprob F pre n idx).length + 1 = n := by simp [mprob]; omega
  rw [hl] at h3
  exact h3

/-- **C63** the conditional cumulative probabilities interpolated at any point again start at 0, end at 1 and are
nondecreasing. -/
theorem C63_conditional (shape : List ℕ) (F : List ℕ → ℝ) (hp : Probs shape F) (pre : List ℕ) (n : ℕ)
    (post : List (List ℝ)) (hg : Grids post) (hsh : shape = pre ++ n :: post.map List.length) (hn : 2 ≤ n)
    (x : List ℝ) (hx : x.length = post.length) : IsCdf n (condCprobs F pre n post x) := by
  have hc := fun idx hi => mprob_cdf shape F hp pre n _ hsh hn idx hi
  have hat : ∀ j, j < n → at' (condCprobs F pre n post x) j =
      linearNd post (table (post.map List.length) fun idx => at' (cprobs (mprob F pre n idx)) j) x := by
    intro j hj
    unfold condCprobs
    rw [at'_eq _ _ (by simpa using hj)]
    simp
  refine ⟨by simp [condCprobs], ?_, ?_, ?_⟩
  · rw [hat 0 (by omega)]
    exact linearNd_const post hg _ x hx 0 fun idx hi => (hc idx hi).first
  · rw [hat (n - 1) (by omega)]
    exact linearNd_const post hg _ x hx 1 fun idx hi => (hc idx hi).last
  · rw [List.pairwise_iff_getElem]
    intro i j hi hj hij
    have hi' : i < n := by simpa [condCprobs] using hi
    have hj' : j < n := by simpa [condCprobs] using hj
    rw [← at'_eq, ← at'_eq, hat i hi', hat j hj']
    apply linearNd_mono post hg _ _ x hx
    intro idx hidx
    exact sorted_le _ (hc idx hidx).mono i j hij.le (by rw [(hc idx hidx).length]; exact hj')

/-- Inverting a cumulative distribution: for `0 ≤ u < 1` the value is within the grid and mapped back to `u` by the
interpolated cumulative distribution. -/
theorem inverse_cdf (cdf g : List ℝ) (h2 : 2 ≤ g.length) (hs : g.Pairwise (· < ·)) (hc : IsCdf g.length cdf) (u : ℝ)
    (h0 : 0 ≤ u) (h1 : u < 1) :
    at' g 0 ≤ linear1d cdf g u ∧ linear1d cdf g u < at' g (g.length - 1) ∧ linear1d g cdf (linear1d cdf g u) = u := by
  have hlen := hc.length
  obtain ⟨b0, b1, b2, -, -⟩ := C51_bracket cdf hc.mono (by omega) u
  have c1 := b1 (by rw [hc.first]; exact h0)
  have c2 := b2 (by rw [hlen, hc.last]; exact h1)
  have e := linear1d_eq cdf g hlen (by omega) u
  set i := projectOne cdf u with hi
  have hpos : 0 < at' cdf (i + 1) - at' cdf i := by linarith
  have hg := sorted_lt g hs i (i + 1) (by omega) (by omega)
  have hgpos : 0 < at' g (i + 1) - at' g i := by linarith
  have l1 : at' g i ≤ linear1d cdf g u := by
    rw [e]
    have : 0 ≤ (u - at' cdf i) * ((at' g (i + 1) - at' g i) / (at' cdf (i + 1) - at' cdf i)) :=
      mul_nonneg (by linarith) (div_nonneg hgpos.le hpos.le)
    linarith
  have l2 : linear1d cdf g u < at' g (i + 1) := by
    rw [e]
    have : (u - at' cdf i) * ((at' g (i + 1) - at' g i) / (at' cdf (i + 1) - at' cdf i)) <
        (at' cdf (i + 1) - at' cdf i) * ((at' g (i + 1) - at' g i) / (at' cdf (i + 1) - at' cdf i)) :=
      mul_lt_mul_of_pos_right (by linarith) (div_pos hgpos hpos)
    rw [mul_div_cancel₀ _ hpos.ne'] at this
    linarith
  have w := strict_weak hs
  refine ⟨le_trans (sorted_le g w 0 i (by omega) (by omega)) l1,
    lt_of_lt_of_le l2 (sorted_le g w (i + 1) (g.length - 1) (by omega) (by omega)), ?_⟩
  rw [linear1d_eq g cdf hlen.symm h2, project_eq g w _ i (by omega) (.inl l1) (.inl l2), e]
  field_simp
  ring

/-- A point within the grids. -/
def InBox (grids : List (List ℝ)) (x : List ℝ) : Prop :=
  List.Forall₂ (fun g t => at' g 0 ≤ t ∧ t < at' g (g.length - 1)) grids x

theorem condCprobs_eq (F : List ℕ → ℝ) (pre : List ℕ) (n : ℕ) (hn : 2 ≤ n) (post : List (List ℝ)) (x : List ℝ) :
    condCprobs F pre n post x = conditionalCdf F pre n post x := by
  unfold condCprobs conditionalCdf
  apply List.map_congr_left
  intro j hj
  congr 2
  funext idx
  exact C63_marginal F pre n hn idx j (by simpa using hj)

theorem icdfItems_box (F : List ℕ → ℝ) (rev : List (List ℝ)) (us : List ℝ) (post : List (List ℝ)) (x : List ℝ) (ud : List ℝ)
    (hl : us.length = rev.length) (hr : Grids rev) (hpost : Grids post) (hx : InBox post x)
    (hs : Inverts F (rev.reverse.map List.length) post x ud)
    (hp : Probs ((rev.reverse ++ post).map List.length) F) (hu : ∀ u ∈ us, 0 ≤ u ∧ u < 1) (hne : rev ≠ []) :
    ∃ r, (icdfItems F rev us post x).getLast? = some r ∧ InBox (rev.reverse ++ post) r ∧
      Inverts F [] (rev.reverse ++ post) r (us.reverse ++ ud) := by
  induction rev generalizing us post x ud with
  | nil => exact absurd rfl hne
  | cons g rev ih =>
    cases us with
    | nil => simp at hl
    | cons u us =>
      have hg := hr g List.mem_cons_self
      have hxl : x.length = post.length := hx.length_eq.symm
      have hcdf := C63_conditional _ F hp (rev.reverse.map List.length) g.length post hpost (by simp) hg.1 x hxl
      have hinv := inverse_cdf _ g hg.1 hg.2 hcdf u (hu u List.mem_cons_self).1 (hu u List.mem_cons_self).2
      set x' := linear1d (condCprobs F (rev.reverse.map List.length) g.length post x) g u :: x with hx'
      have hbox : InBox (g :: post) x' := .cons ⟨hinv.1, hinv.2.1⟩ hx
      have hsol : Inverts F (rev.reverse.map List.length) (g :: post) x' (u :: ud) := by
        refine ⟨?_, by simpa using hs⟩
        rw [← condCprobs_eq F _ _ hg.1]
        exact hinv.2.2
      have hitems : icdfItems F (g :: rev) (u :: us) post x = x' :: icdfItems F rev us (g :: post) x' := rfl
      rw [hitems, List.getLast?_cons]
      by_cases hrev : rev = []
      · subst hrev
        have : us = [] := by simpa using hl
        subst this
        exact ⟨x', by simp [icdfItems], by simpa using hbox, by simpa using hsol⟩
      · obtain ⟨r, h1, h2, h3⟩ := ih us (g :: post) x' (u :: ud) (by simpa using hl) (fun g' h' => hr g' (List.mem_cons_of_mem _ h'))
          (by intro g' h'; rcases List.mem_cons.mp h' with rfl | h'; exacts [hg, hpost g' h']) hbox hsol (by simpa using hp)
          (fun v hv => hu v (List.mem_cons_of_mem _ hv)) hrev
        exact ⟨r, by rw [h1]; rfl, by simpa using h2, by simpa using h3⟩

/-- **C63** in two or more dimensions sampling always succeeds, every coordinate lies within its grid, and in every dimension the
cumulative distribution given the later coordinates takes the value of the uniform (the first uniform is for the last dimension),
for uniform inputs in `[0, 1)`. -/
theorem C63_icdf (grids : List (List ℝ)) (hg : Grids grids) (hd : 2 ≤ grids.length) (F : List ℕ → ℝ)
    (hp : Probs (grids.map List.length) F) (us : List ℝ) (hl : us.length = grids.length)
    (hu : ∀ u ∈ us, 0 ≤ u ∧ u < 1) : ∃ x, icdf grids F us = .ok x ∧ InBox grids x ∧ Inverts F [] grids x us.reverse := by
  obtain ⟨rev, rfl⟩ : ∃ rev, grids = rev.reverse := ⟨grids.reverse, by simp⟩
  cases rev with
  | nil => simp at hd
  | cons g rev =>
    cases us with
    | nil => simp at hl
    | cons u us =>
      have hgg := hg g (by simp)
      have hcdf := mprob_cdf _ F hp (rev.reverse.map List.length) g.length [] (by simp) hgg.1 [] .nil
      have hinv := inverse_cdf _ g hgg.1 hgg.2 hcdf u (hu u List.mem_cons_self).1 (hu u List.mem_cons_self).2
      have hrev : rev ≠ [] := by rintro rfl; simp at hd
      have hsol : Inverts F (rev.reverse.map List.length) [g]
          [linear1d (cprobs (mprob F (rev.reverse.map List.length) g.length [])) g u] [u] := by
        refine ⟨?_, trivial⟩
        have e : conditionalCdf F (rev.reverse.map List.length) g.length [] [] = cprobs (mprob F (rev.reverse.map List.length) g.length []) := by
          apply List.ext_getElem
          · rw [hcdf.length]; simp [conditionalCdf]
          · intro j h1 h2
            have hj : j < g.length := by simpa [conditionalCdf] using h1
            rw [← at'_eq _ _ h2, C63_marginal F _ _ hgg.1 [] j hj]
            simp only [conditionalCdf, List.getElem_map, List.getElem_range]
            exact linearNd_const [] (fun _ h => by simp at h) _ [] rfl _ fun idx hi => by cases hi; rfl
        rw [e]
        exact hinv.2.2
      obtain ⟨r, h1, h2, h3⟩ := icdfItems_box F rev us [g]
        [linear1d (cprobs (mprob F (rev.reverse.map List.length) g.length [])) g u] [u] (by simpa using hl)
        (fun g' h' => hg g' (by simp [h'])) (fun g' h' => by simp at h'; subst h'; exact hgg)
        (.cons ⟨hinv.1, hinv.2.1⟩ .nil) hsol (by simpa using hp) (fun v hv => hu v (List.mem_cons_of_mem _ hv)) hrev
      refine ⟨r, ?_, by simpa using h2, by simpa using h3⟩
      simp only [icdf, List.reverse_reverse, h1]

/-- **C63** the inverse cumulative distribution of the last coordinate really inverts it. -/
theorem C63_inverse (cdf g : List ℝ) (h2 : 2 ≤ g.length) (hs : g.Pairwise (· < ·)) (hc : IsCdf g.length cdf) (u : ℝ)
    (h0 : 0 ≤ u) (h1 : u < 1) : linear1d g cdf (linear1d cdf g u) = u :=
  (inverse_cdf cdf g h2 hs hc u h0 h1).2.2

/-- **C63** in one dimension sampling always raises `ValueError`: the generator in `icdf` yields nothing. -/
theorem C63_one_dim_false (g : List ℝ) (F : List ℕ → ℝ) (u : ℝ) : icdf [g] F [u] = .error .valueError := by
  simp [icdf, icdfItems]

/-- The hypotheses are met: a 2 × 3 grid with uniform probabilities. -/
theorem ex_probs : Grids [[0, 1], [0, 1, 3]] ∧ Probs ([[0, 1], [0, 1, 3]].map List.length : List ℕ) (fun _ => 1) := by
  refine ⟨?_, fun _ _ => zero_le_one, ?_⟩
  · intro g hg
    simp only [List.mem_cons, List.not_mem_nil, or_false] at hg
    rcases hg with rfl | rfl <;> simp
  · intro pre n post h idx hidx
    match pre with
    | [] =>
      simp only [List.map_cons, List.map_nil, List.length_cons, List.length_nil, List.nil_append, List.cons.injEq] at h
      obtain ⟨rfl, -⟩ := h
      norm_num [trapezoid, marginal, indices, Finset.sum_range_succ]
    | [a] =>
      simp only [List.map_cons, List.map_nil, List.length_cons, List.length_nil, List.cons_append, List.nil_append, List.cons.injEq] at h
      obtain ⟨rfl, rfl, -⟩ := h
      norm_num [trapezoid, marginal, indices, List.range_succ, Finset.sum_range_succ]
    | a :: b :: pre =>
      have := congrArg List.length h
      simp at this

/-- `C63_marginal`, `C63_conditional`, `C63_icdf`, `C63_inverse`. -/
example := C63_marginal (fun _ => 1) [2] 3 (by norm_num) [] 1 (by norm_num)
example := C63_conditional ([[0, 1], [0, 1, 3]].map List.length : List ℕ) (fun _ => 1) ex_probs.2 [] 2 [[0, 1, 3]]
  (fun g hg => ex_probs.1 g (List.mem_cons_of_mem _ hg)) rfl le_rfl [2] rfl
example := C63_icdf [[0, 1], [0, 1, 3]] ex_probs.1 (by simp) (fun _ => 1) ex_probs.2 [1 / 2, 1 / 3] rfl (by
  intro u hu
  simp only [List.mem_cons, List.not_mem_nil, or_false] at hu
  rcases hu with rfl | rfl <;> norm_num)
example := C63_inverse [0, 1 / 4, 1] [0, 1, 3] (by simp) (by norm_num) ⟨rfl, rfl, rfl, by norm_num⟩ (1 / 2) (by norm_num) (by norm_num)

end Verif.Interp
