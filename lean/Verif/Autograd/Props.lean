import Verif.Autograd.Model
import Mathlib.Analysis.Calculus.Deriv.Add
import Mathlib.Data.List.OfFn
import Mathlib.Analysis.Calculus.FDeriv.OfCompLeft
import Mathlib.Analysis.Calculus.FDeriv.Pi
import Mathlib.Analysis.Calculus.FDeriv.Comp
import Mathlib.Analysis.Normed.Module.FiniteDimension
import Mathlib.Analysis.Calculus.Deriv.Basic
import Mathlib.Data.List.GetD
import Mathlib.Tactic

/-! # C36, C58, C59, C78: gradients go where they belong -/

namespace Verif.Autograd

variable {K : Type}

/-! ### C58 -/

/-- **C58** with one incoming gradient the result has one entry per input; entry `i` is `None` unless that input needs
a gradient and has a gradient function, and then it is the processed value of gradient function `i` at the saved
tensors times the incoming gradient. -/
theorem C58_aligned [Semiring K] (process : K → K) (gfs : List (Option (GradFn K))) (nig : List Bool) (saved : List K)
    (n : ℕ) (hg : gfs.length = n) (hn : nig.length = n) (g : K) :
    ∃ l, backward process (some n) (rawBackward gfs nig saved) [some g] = .ret l ∧ l.length = n ∧
      ∀ (i : ℕ) (hi : i < n) (hl : i < l.length),
        (nig[i] = false ∨ gfs[i] = none → l[i] = none) ∧
        (∀ gf, nig[i] = true → gfs[i] = some gf → l[i] = some (process (gf saved) * g)) := by
  subst hg
  refine ⟨_, rfl, by simp [rawBackward, hn], ?_⟩
  intro i hi hl
  have hz : (rawBackward gfs nig saved).length = gfs.length := by simp [rawBackward, hn]
  rw [List.getElem_append_left (by simpa [hz] using hi), List.getElem_map]
  simp only [rawBackward, List.getElem_zipWith]
  constructor
  · rintro (h | h) <;> simp [h]
  · intro gf h1 h2
    simp [h1, h2]

/-- `C58_aligned`: three inputs, the second without a gradient function, the third not needing one. -/
example := C58_aligned (K := ℝ) id [some fun s => s.sum, none, some fun _ => 1] [true, true, false] [1, 2, 3] 3 rfl rfl 5

/-- **C58** with several outputs the incoming gradients that are present are added up (so a function with several
outputs gets one gradient function per input for all of them together). -/
theorem C58_many [Semiring K] (process : K → K) (gfs : List (Option (GradFn K))) (nig : List Bool) (saved : List K)
    (n : ℕ) (hg : gfs.length = n) (hn : nig.length = n) (gouts : List (Option K)) (hne : ∃ g, some g ∈ gouts) :
    ∃ l, backward process (some n) (rawBackward gfs nig saved) gouts = .ret l ∧ l.length = n ∧
      ∀ (i : ℕ) (hi : i < n) (hl : i < l.length),
        (nig[i] = false ∨ gfs[i] = none → l[i] = none) ∧
        (∀ gf, nig[i] = true → gfs[i] = some gf → l[i] = some (process (gf saved) * (gouts.filterMap id).sum)) := by
  subst hg
  obtain ⟨g, hmem⟩ := hne
  have hm : g ∈ gouts.filterMap id := by simpa using hmem
  unfold backward
  generalize gouts.filterMap id = gs at hm ⊢
  cases gs with
  | nil => simp at hm
  | cons a gs =>
    refine ⟨_, rfl, by simp [rawBackward, hn], ?_⟩
    intro i hi hl
    have hz : (rawBackward gfs nig saved).length = gfs.length := by simp [rawBackward, hn]
    rw [List.getElem_append_left (by simpa [hz] using hi), List.getElem_map]
    simp only [rawBackward, List.getElem_zipWith]
    constructor
    · rintro (h | h) <;> simp [h]
    · intro gf h1 h2
      simp only [h1, h2, if_true, Option.map_some, Option.some.injEq]
      have := List.sum_map_mul_left (a :: gs) id (process (gf saved))
      simpa using this

/-- `C58_many`: two outputs, one of them without a gradient. -/
example := C58_many (K := ℝ) id [some fun s => s.sum, none] [true, true] [1, 2] 2 rfl rfl [none, some 5] ⟨5, by simp⟩

/-- **C58** without an incoming gradient every entry is `None`, whatever needs a gradient. -/
theorem C58_none [Semiring K] (process : K → K) (inner : List (Option K)) (n : ℕ) (gouts : List (Option K))
    (h : ∀ g ∈ gouts, g = none) : backward process (some n) inner gouts = .ret (List.replicate n none) := by
  have : gouts.filterMap id = [] := by
    rw [List.filterMap_eq_nil_iff]
    intro a ha
    simp [h a ha]
  unfold backward
  rw [this]

/-- `C58_none`: two outputs without gradients. -/
example := C58_none (K := ℝ) id [some 1, some 2] 2 [none, none] (by simp)

/-- **C58** a class whose number of inputs is unknown never finishes `backward` once a gradient arrives. -/
theorem C58_hang [Semiring K] (process : K → K) (inner : List (Option K)) (g : K) :
    backward process none inner [some g] = .hang := rfl

/-- The gradients of `AlternativeForwardMixin`: entry `i` is the partial derivative of the alternative function in
argument `i`. -/
theorem go_spec (D : ℕ → K) (nig : List Bool) (off : ℕ) (idx : List ℕ)
    (h : idx = ((nig.zipIdx off).filter (·.1)).map Prod.snd) :
    alternativeBackward.go nig (idx.map D) = nig.mapIdx fun i n => if n then some (D (off + i)) else none := by
  induction nig generalizing off idx with
  | nil => simp [alternativeBackward.go]
  | cons n nig ih =>
    have hs : (fun i n => if n = true then some (D (off + (i + 1))) else none) =
        (fun i (n : Bool) => if n = true then some (D (off + 1 + i)) else none) := by
      funext i n
      rw [show off + (i + 1) = off + 1 + i by ring]
    cases n with
    | false =>
      simp only [List.zipIdx_cons, List.filter_cons, Bool.false_eq_true, if_false] at h
      simp [alternativeBackward.go, ih (off + 1) idx h, List.mapIdx_cons, hs]
    | true =>
      simp only [List.zipIdx_cons, List.filter_cons, if_true, List.map_cons] at h
      subst h
      have := ih (off + 1) _ rfl
      rw [List.map_cons, alternativeBackward.go, this]
      simp [List.mapIdx_cons, hs]

theorem zip_zipIdx (nig : List Bool) (saved : List K) (h : nig.length = saved.length) (off : ℕ) :
    (((nig.zip saved).zipIdx off).filter (·.1.1)).map Prod.snd = ((nig.zipIdx off).filter (·.1)).map Prod.snd := by
  induction nig generalizing saved off with
  | nil => simp
  | cons n nig ih =>
    cases saved with
    | nil => simp at h
    | cons s saved =>
      have := ih saved (by simpa using h) (off + 1)
      cases n <;> simp [List.filter_cons, this]

/-- **C58** functions differentiated through an alternative implementation: entry `i` is the derivative in argument `i`
when it needs a gradient and `None` otherwise, provided `torch.autograd.grad` returns one derivative per requested
argument in order. -/
theorem C58_alternative [Semiring K] (process : K → K) (grad : List K → List ℕ → List K) (D : List K → ℕ → K)
    (hD : ∀ args wrt, grad args wrt = wrt.map (D args)) (nig : List Bool) (saved : List K)
    (h : nig.length = saved.length) (g : K) :
    backward process (some nig.length) (alternativeBackward grad nig saved) [some g] =
      .ret (nig.mapIdx fun i n => if n then some (process (D saved i) * g) else none) := by
  have key := go_spec (D saved) nig 0 _ rfl
  have hrel := zip_zipIdx nig saved h 0
  have hb : ∀ inner : List (Option K), backward process (some nig.length) inner [some g] =
      .ret (inner.map (Option.map fun x => process x * g) ++ List.replicate (nig.length - inner.length) none) := by
    intro inner; simp [backward, padded]
  rw [hb]
  simp only [alternativeBackward, hD]
  by_cases hr : (((nig.zip saved).zipIdx).filter (·.1.1)).map Prod.snd = []
  · rw [if_pos hr]
    rw [hrel] at hr
    have hall : ∀ n ∈ nig, n = false := by
      intro n hn
      by_contra hc
      have hc' : n = true := by simpa using hc
      subst hc'
      obtain ⟨i, hi, he⟩ := List.getElem_of_mem hn
      simp only [List.map_eq_nil_iff, List.filter_eq_nil_iff] at hr
      exact hr (true, i) (by rw [List.mk_mem_zipIdx_iff_getElem?]; simp [List.getElem?_eq_getElem hi, he]) rfl
    congr 1
    apply List.ext_getElem
    · simp
    · intro i h1 h2
      have : nig[i]'(by simpa using h2) = false := hall _ (List.getElem_mem _)
      simp [this]
  · rw [if_neg hr, hrel, key]
    congr 1
    apply List.ext_getElem
    · simp
    · intro i h1 h2
      have hlen : i < nig.length := by simpa using h2
      rw [List.getElem_append_left (by simpa using hlen)]
      simp only [List.getElem_map, List.getElem_mapIdx, zero_add]
      split <;> simp

/-- `C58_alternative`: a function of two arguments. -/
example := C58_alternative (K := ℝ) id (fun args wrt => wrt.map fun i => args.getD i 0 ^ 2) (fun args i => args.getD i 0 ^ 2)
  (fun _ _ => rfl) [true, false] [3, 4] rfl 5

/-! ### C78: order of the gradient functions -/

theorem dictSet_keys {α : Type} (d : List (String × α)) (k : String) (v : α) :
    (dictSet d k v).map Prod.fst = if k ∈ d.map Prod.fst then d.map Prod.fst else d.map Prod.fst ++ [k] := by
  unfold dictSet
  by_cases h : d.any (·.1 == k) = true
  · have hm : k ∈ d.map Prod.fst := by
      rw [List.any_eq_true] at h
      obtain ⟨p, hp, he⟩ := h
      rw [← (beq_iff_eq.mp he)]
      exact List.mem_map_of_mem hp
    rw [if_pos h, if_pos hm, List.map_map]
    apply List.map_congr_left
    intro p _
    simp only [Function.comp]
    split
    · rename_i he; exact (beq_iff_eq.mp he).symm
    · rfl
  · have hm : k ∉ d.map Prod.fst := by
      intro hk
      apply h
      rw [List.any_eq_true]
      obtain ⟨p, hp, he⟩ := List.mem_map.mp hk
      exact ⟨p, hp, by simpa using he⟩
    rw [if_neg h, if_neg hm]
    simp

theorem dictSet_of_mem {α : Type} (d : List (String × α)) (k : String) (v : α) (h : k ∈ d.map Prod.fst) :
    dictSet d k v = d.map fun p => if p.1 == k then (k, v) else p := by
  unfold dictSet
  rw [if_pos]
  rw [List.any_eq_true]
  obtain ⟨p, hp, he⟩ := List.mem_map.mp h
  exact ⟨p, hp, by simpa using he⟩

theorem dictSet_of_not_mem {α : Type} (d : List (String × α)) (k : String) (v : α) (h : k ∉ d.map Prod.fst) :
    dictSet d k v = d ++ [(k, v)] := by
  unfold dictSet
  rw [if_neg]
  intro hc
  rw [List.any_eq_true] at hc
  obtain ⟨p, hp, he⟩ := hc
  exact h (beq_iff_eq.mp he ▸ List.mem_map_of_mem hp)

theorem foldl_override {α : Type} (l d : List (String × α)) (h : ∀ p ∈ l, p.1 ∈ d.map Prod.fst)
    (hn : (l.map Prod.fst).Nodup) :
    l.foldl (fun d p => dictSet d p.1 p.2) d = d.map fun p => (p.1, (l.lookup p.1).getD p.2) := by
  induction l generalizing d with
  | nil => simp
  | cons p l ih =>
    rw [List.map_cons, List.nodup_cons] at hn
    have e : (dictSet d p.1 p.2).map Prod.fst = d.map Prod.fst := by
      rw [dictSet_keys, if_pos (h p List.mem_cons_self)]
    rw [List.foldl_cons, ih _ (fun q hq => by rw [e]; exact h q (List.mem_cons_of_mem _ hq)) hn.2,
      dictSet_of_mem _ _ _ (h p List.mem_cons_self), List.map_map]
    apply List.map_congr_left
    intro q _
    obtain ⟨k, v⟩ := p
    simp only [Function.comp]
    by_cases hq : q.1 = k
    · have : l.lookup k = none := by
        rw [List.lookup_eq_none_iff]
        intro r hr
        have hne : k ≠ r.1 := by
          intro hc
          exact hn.1 (List.mem_map.mpr ⟨r, hr, hc.symm⟩)
        simpa using hne
      simp [hq, this]
    · have hf : (q.1 == k) = false := by simpa using hq
      simp [hq, List.lookup_cons, hf]

theorem foldl_fresh {α : Type} (l d : List (String × α)) (h : ∀ p ∈ l, p.1 ∉ d.map Prod.fst)
    (hn : (l.map Prod.fst).Nodup) : l.foldl (fun d p => dictSet d p.1 p.2) d = d ++ l := by
  induction l generalizing d with
  | nil => simp
  | cons p l ih =>
    rw [List.map_cons, List.nodup_cons] at hn
    rw [List.foldl_cons, dictSet_of_not_mem _ _ _ (h p List.mem_cons_self), ih _ _ hn.2]
    · simp
    · intro q hq
      rw [List.map_append, List.mem_append]
      rintro (h1 | h1)
      · exact h q (List.mem_cons_of_mem _ hq) h1
      · simp only [List.map_cons, List.map_nil, List.mem_singleton] at h1
        exact hn.1 (h1 ▸ List.mem_map_of_mem hq)

/-- **C78** a class that only overrides gradient functions of its base keeps their order, so the arguments stay paired
with the gradients declared in the base class; overridden functions are replaced and the others inherited. -/
theorem C78_override {α : Type} (base overriding : List (String × α))
    (ho : ∀ p ∈ overriding, p.1 ∈ base.map Prod.fst) (hn : (overriding.map Prod.fst).Nodup)
    (hb : (base.map Prod.fst).Nodup) (hg : ∀ p ∈ base, p.1.startsWith "grad_" = true) :
    autoGradfuncs [overriding, base] = base.map fun p => (p.1, (overriding.lookup p.1).getD p.2) := by
  have hfb : base.filter (fun p => p.1.startsWith "grad_") = base := List.filter_eq_self.mpr hg
  have hfo : overriding.filter (fun p => p.1.startsWith "grad_") = overriding := by
    apply List.filter_eq_self.mpr
    intro p hp
    obtain ⟨q, hq, he⟩ := List.mem_map.mp (ho p hp)
    rw [← he]
    exact hg q hq
  simp only [autoGradfuncs, List.reverse_cons, List.reverse_nil, List.nil_append, List.singleton_append,
    List.flatMap_cons, List.flatMap_nil, List.append_nil, hfb, hfo, List.foldl_append]
  rw [foldl_fresh base [] (by simp) hb, List.nil_append, foldl_override _ _ ho hn]

/-- `C78_override`: a subclass overriding the second of two gradient functions. -/
example : autoGradfuncs [[("grad_y", 9)], [("grad_x", 1), ("grad_y", 2)]] = [("grad_x", 1), ("grad_y", 9)] := by
  have := C78_override [("grad_x", 1), ("grad_y", 2)] [("grad_y", 9)] (by simp) (by simp) (by simp) (by decide +kernel)
  rw [this]; rfl

/-- **C78** an explicit list of gradient functions is used as given, and fixes the number of inputs, unless a base
class's list was collected automatically: then it is ignored. -/
theorem C78_explicit {α : Type} (l : List (Option α)) (mro : List (List (String × α))) (update : List α → List α) :
    initSubclass (some l) false none mro update = (some l, false, some l.length) ∧
    ∀ ninputs, initSubclass (some l) true ninputs mro update = initSubclass none true ninputs mro update := by
  constructor
  · simp [initSubclass]
  · intro n; simp [initSubclass]

/-! ### C36: symmetric functions -/

theorem rotate_head (l : List K) (i : ℕ) (hi : i < l.length) :
    l.rotate i = l[i] :: (l.drop (i + 1) ++ l.take i) := by
  rw [List.rotate_eq_drop_append_take hi.le, List.drop_eq_getElem_cons hi]
  rfl

/-- **C36** in the symmetric integrals entry `i` is the derivative function evaluated with argument `i` in the place it
differentiates and the other arguments, each once, in the other places; for a symmetric function this is the derivative
in argument `i`. The quantifiers cover any number of arguments and any subset that needs gradients. -/
theorem C36_symmetric [Zero K] (g : List K → K → K) (nig : List Bool) (saved : List K) (hn : nig.length = saved.length) :
    (symmetricBackward g nig saved).length = saved.length ∧
    ∀ (i : ℕ) (hi : i < saved.length) (hl : i < (symmetricBackward g nig saved).length),
      (nig[i] = false → (symmetricBackward g nig saved)[i] = none) ∧
      (nig[i] = true → ∃ others : List K, others.Perm (saved.eraseIdx i) ∧
        (symmetricBackward g nig saved)[i] = some (g others saved[i])) := by
  refine ⟨by simp [symmetricBackward, circularShifts, hn], ?_⟩
  intro i hi hl
  simp only [symmetricBackward, circularShifts, List.getElem_zipWith, List.getElem_map, List.getElem_range]
  constructor
  · intro h; simp [h]
  · intro h
    refine ⟨(saved.drop (i + 1) ++ saved.take i).reverse, ?_, ?_⟩
    · refine (List.reverse_perm _).trans ?_
      rw [List.eraseIdx_eq_take_drop_succ]
      exact List.perm_append_comm
    · rw [if_pos h, rotate_head saved i hi]
      simp

/-- `C36_symmetric`: three arguments. -/
example := C36_symmetric (K := ℝ) (fun others v => others.sum * v) [true, false, true] [1, 2, 3] rfl

/-- **C36** in particular: if `f` does not depend on the order of its arguments and `g others v` is the derivative of
`v ↦ f (others ++ [v])`, entry `i` is the derivative of `f` in its `i`-th argument. -/
theorem C36_derivative [NontriviallyNormedField K] (f : List K → K) (hf : ∀ l l' : List K, l.Perm l' → f l = f l')
    (g : List K → K → K) (nig : List Bool) (saved : List K) (hn : nig.length = saved.length)
    (hg : ∀ i, (hi : i < saved.length) → ∀ others : List K, others.Perm (saved.eraseIdx i) →
      HasDerivAt (fun v => f (others ++ [v])) (g others saved[i]) saved[i])
    (i : ℕ) (hi : i < saved.length) (hnig : nig[i] = true) (hl : i < (symmetricBackward g nig saved).length) :
    ∃ D, (symmetricBackward g nig saved)[i] = some D ∧ HasDerivAt (fun v => f (saved.set i v)) D saved[i] := by
  obtain ⟨others, hp, he⟩ := ((C36_symmetric g nig saved hn).2 i hi hl).2 hnig
  refine ⟨_, he, ?_⟩
  have := hg i hi others hp
  have e : (fun v => f (saved.set i v)) = fun v => f (others ++ [v]) := by
    funext v
    apply hf
    rw [List.set_eq_take_append_cons_drop, if_pos hi]
    refine List.perm_middle.trans ?_
    refine List.Perm.trans ?_ List.perm_append_comm
    rw [List.singleton_append]
    refine List.Perm.cons v ?_
    rw [← List.eraseIdx_eq_take_drop_succ]
    exact hp.symm
  rw [e]
  exact this

/-- `C36_derivative`: the sum of three arguments. -/
example := C36_derivative (K := ℝ) List.sum (fun _ _ h => h.sum_eq) (fun _ _ => 1) [true, false, true] [1, 2, 3] rfl
  (fun i _ others _ => by
    simpa [id] using HasDerivAt.const_add others.sum (hasDerivAt_id _)) 2 (by simp) rfl

/-! ### C59: inverse functions -/

theorem reorder_eq (n : ℕ) (a : Fin n → K) [Zero K] (k : Fin n) (y : K) :
    reorder k (List.ofFn a ++ [y]) = List.ofFn (Function.update a k y) ++ [a k] := by
  have hk : (k : ℕ) < n := k.2
  have h1 : (List.ofFn a ++ [y]).getLastD 0 = y := by simp [List.getLastD_eq_getLast?]
  have h2 : (List.ofFn a ++ [y]).getD k 0 = a k := by
    rw [List.getD_eq_getElem _ _ (by simp), List.getElem_append_left (by simp)]
    simp
  have h3 : (List.ofFn a ++ [y]).take k = (List.ofFn a).take k := by
    rw [List.take_append_of_le_length (by simp)]
  have h4 : ((List.ofFn a ++ [y]).drop (k + 1)).dropLast = (List.ofFn a).drop (k + 1) := by
    rw [List.drop_append_of_le_length (by simp)]
    simp
  have h5 : List.ofFn (Function.update a k y) = (List.ofFn a).take k ++ y :: (List.ofFn a).drop (k + 1) := by
    have : List.ofFn (Function.update a k y) = (List.ofFn a).set k y := by
      apply List.ext_getElem
      · simp
      · intro i h1 h2
        rw [List.getElem_ofFn, List.getElem_set]
        by_cases hik : (k : ℕ) = i
        · subst hik; simp
        · rw [if_neg hik, Function.update_of_ne, List.getElem_ofFn]
          intro h; exact hik (by rw [← h])
    rw [this, List.set_eq_take_append_cons_drop, if_pos (by simp)]
  rw [reorder, h1, h2, h3, h4, h5]
  simp

/-- **C59** the gradients of an inverse function are those of the implicit function: let `F` be a function of `n`
variables with gradient functions `fwd`, `G` its inverse in variable `k` near `a` (`F` at `a` with `a k` replaced by
`G a` is `a k`), continuous at `a`; if `F` is differentiable there and its derivative in variable `k` does not vanish,
then `G` is differentiable and the returned gradients, for every subset of inputs that need one, are its partial
derivatives. -/
theorem C59_inverse [NontriviallyNormedField K] [CompleteSpace K] (n : ℕ) (F G : (Fin n → K) → K) (k : Fin n)
    (a : Fin n → K) (F' : (Fin n → K) →L[K] K)
    (hF : HasFDerivAt F F' (Function.update a k (G a))) (hk : F' (Pi.single k 1) ≠ 0) (hG : ContinuousAt G a)
    (hinv : ∀ᶠ b in nhds a, F (Function.update b k (G b)) = b k)
    (fwd : List (GradFn K)) (hlen : fwd.length = n)
    (hfwd : ∀ i : Fin n, fwd[i] (List.ofFn (Function.update a k (G a)) ++ [F (Function.update a k (G a))]) =
      F' (Pi.single i 1))
    (nig : Fin n → Bool) :
    ∃ G' : (Fin n → K) →L[K] K, HasFDerivAt G G' a ∧
      inverseBackward fwd k (List.ofFn nig) (List.ofFn a ++ [G a]) =
        List.ofFn fun i => if nig i then some (G' (Pi.single i 1)) else none := by
  set p := Function.update a k (G a) with hp
  have hFp : F p = a k := hinv.self_of_nhds
  -- the map that replaces coordinate `k` by `F`
  let Φ : (Fin n → K) → (Fin n → K) := fun b => Function.update b k (F b)
  let Ψ : (Fin n → K) → (Fin n → K) := fun b => Function.update b k (G b)
  let Φ' : (Fin n → K) →L[K] (Fin n → K) :=
    ContinuousLinearMap.pi fun i => if i = k then F' else ContinuousLinearMap.proj i
  have hΦ : HasFDerivAt Φ Φ' p := by
    rw [hasFDerivAt_pi]
    intro i
    by_cases hi : i = k
    · subst hi
      simpa [Φ] using hF
    · simp only [Φ, hi, if_false, Function.update_of_ne hi]
      exact (ContinuousLinearMap.proj (R := K) (φ := fun _ : Fin n => K) i).hasFDerivAt
  have hΦapp : ∀ v i, Φ' v i = if i = k then F' v else v i := by
    intro v i
    simp only [Φ', ContinuousLinearMap.pi_apply]
    split <;> rfl
  -- the inverse of the derivative
  let c := F' (Pi.single k 1)
  have hc : c ≠ 0 := hk
  have hdecomp : ∀ v : Fin n → K, ∀ t : K, F' (Function.update v k t) = F' v + (t - v k) * c := by
    intro v t
    have : Function.update v k t = v + (t - v k) • Pi.single k 1 := by
      funext i
      by_cases hi : i = k
      · subst hi; simp
      · simp [hi]
    rw [this, map_add, map_smul, smul_eq_mul]
  let Θ : (Fin n → K) →ₗ[K] (Fin n → K) :=
    { toFun := fun v => Function.update v k (v k + (v k - F' v) / c)
      map_add' := by
        intro v w
        funext i
        by_cases hi : i = k
        · subst hi
          simp only [Function.update_self, Pi.add_apply, map_add]
          ring
        · simp [hi]
      map_smul' := by
        intro r v
        funext i
        by_cases hi : i = k
        · subst hi
          simp only [Function.update_self, Pi.smul_apply, map_smul, smul_eq_mul, RingHom.id_apply]
          ring
        · simp [hi] }
  have hΘ : ∀ v, Θ v = Function.update v k (v k + (v k - F' v) / c) := fun v => rfl
  let e : (Fin n → K) ≃L[K] (Fin n → K) :=
    LinearEquiv.toContinuousLinearEquiv
      { Φ'.toLinearMap with
        invFun := Θ
        left_inv := by
          intro v
          funext i
          change Θ (Φ' v) i = v i
          rw [hΘ]
          have h1 : Φ' v = Function.update v k (F' v) := by
            funext j
            rw [hΦapp]
            by_cases hj : j = k
            · subst hj; simp
            · simp [hj]
          by_cases hi : i = k
          · subst hi
            rw [Function.update_self, h1, Function.update_self, hdecomp]
            field_simp
            ring
          · rw [Function.update_of_ne hi, hΦapp, if_neg hi]
        right_inv := by
          intro v
          funext i
          change Φ' (Θ v) i = v i
          rw [hΦapp, hΘ]
          by_cases hi : i = k
          · subst hi
            rw [if_pos rfl, hdecomp]
            field_simp
            ring
          · rw [if_neg hi, Function.update_of_ne hi] }
  have he : (e : (Fin n → K) →L[K] (Fin n → K)) = Φ' := by ext v i; rfl
  have hesymm : ∀ v, e.symm v = Θ v := fun v => rfl
  have hΨc : ContinuousAt Ψ a := continuousAt_id.update k hG
  have hΨ : HasFDerivAt Ψ (e.symm : (Fin n → K) →L[K] (Fin n → K)) a := by
    refine HasFDerivAt.of_local_left_inverse (f := Φ) hΨc (by rw [he]; exact hΦ) ?_
    filter_upwards [hinv] with b hb
    simp only [Φ, Ψ, hb]
    rw [Function.update_idem, Function.update_eq_self]
  refine ⟨(ContinuousLinearMap.proj k).comp (e.symm : (Fin n → K) →L[K] (Fin n → K)), ?_, ?_⟩
  · have h1 := (ContinuousLinearMap.proj (R := K) (φ := fun _ : Fin n => K) k).hasFDerivAt.comp a hΨ
    have h2 : (fun b => Ψ b k) = G := by funext b; simp [Ψ]
    exact h2 ▸ h1
  · have hval : ∀ i : Fin n, ((ContinuousLinearMap.proj k).comp (e.symm : (Fin n → K) →L[K] (Fin n → K)))
        (Pi.single i 1) = if i = k then 1 / c else -F' (Pi.single i 1) * (1 / c) := by
      intro i
      change e.symm (Pi.single i 1) k = _
      rw [hesymm, hΘ, Function.update_self]
      by_cases hi : i = k
      · subst hi
        simp only [Pi.single_eq_same, if_true]
        change 1 + (1 - c) / c = 1 / c
        field_simp
        ring
      · rw [if_neg hi, Pi.single_eq_of_ne (Ne.symm hi)]
        ring
    have hre : reorder k (List.ofFn a ++ [G a]) = List.ofFn p ++ [F p] := by rw [reorder_eq, hFp]
    simp only [inverseBackward, rawBackward]
    apply List.ext_getElem
    · simp [hlen]
    · intro i h1 h2
      have hi : i < n := by simpa using h2
      rw [List.getElem_zipWith, List.getElem_ofFn, List.getElem_ofFn, List.getElem_mapIdx, hval ⟨i, hi⟩]
      have hgk : (fwd.getD (k : ℕ) fun _ => 0) = fwd[(k : ℕ)]'(by rw [hlen]; exact k.2) := List.getD_eq_getElem _ _ _
      simp only [Option.map_some, hgk, hre]
      have hck := hfwd k
      have hci := hfwd ⟨i, hi⟩
      simp only [Fin.getElem_fin] at hck hci
      rw [hck, hci]
      by_cases hik : i = k
      · have : (⟨i, hi⟩ : Fin n) = k := Fin.ext hik
        simp [hik, c]
      · have : (⟨i, hi⟩ : Fin n) ≠ k := fun h => hik (congrArg Fin.val h)
        simp [hik, this, c]

/-- `C59_inverse`: `F(a, b) = 2a + 3b` inverted in `a`: `G(a, b) = (a - 3b)/2`. -/
example (a : Fin 2 → ℝ) := C59_inverse (K := ℝ) 2 (fun v => 2 * v 0 + 3 * v 1) (fun v => (v 0 - 3 * v 1) / 2) 0 a
  ((2 : ℝ) • ContinuousLinearMap.proj 0 + (3 : ℝ) • ContinuousLinearMap.proj 1)
  (((2 : ℝ) • ContinuousLinearMap.proj (R := ℝ) (φ := fun _ : Fin 2 => ℝ) 0 +
    (3 : ℝ) • ContinuousLinearMap.proj 1).hasFDerivAt) (by simp) (by fun_prop)
  (Filter.Eventually.of_forall fun b => by simp [Function.update_of_ne]; ring) [fun _ => 2, fun _ => 3] rfl
  (fun i => by fin_cases i <;> simp) fun _ => true

end Verif.Autograd
