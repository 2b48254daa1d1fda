import Verif.Dtype.Spec

/-! # C120: the precision of the arguments of the extension functions -/

namespace Verif.Dtype
open Verif.Round

/-! ## Lemmas -/

theorem isFl_mono {p q : ℕ} (h : p ≤ q) {x : ℝ} (hx : IsFl p x) : IsFl q x := by
  obtain ⟨m, e, hm, rfl⟩ := hx
  exact ⟨m, e, hm.trans_le (pow_le_pow_right₀ (by norm_num) h), rfl⟩

theorem isFl_int {p : ℕ} {n : ℤ} (h : |n| < 2 ^ p) : IsFl p (n : ℝ) := ⟨n, 0, h, by simp⟩

theorem bits_le_double (p : Prec) : p.bits ≤ 53 := by cases p <;> simp [Prec.bits]

theorem bits_pos (p : Prec) : 1 ≤ p.bits := by cases p <;> simp [Prec.bits]

theorem round_self (E : Env) {p : Prec} {z : ℂ} (h : Exact p.bits z) : E.round p z = z :=
  Complex.ext ((E.near p).self h.1) ((E.near p).self h.2)

theorem exact_round (E : Env) (p : Prec) (z : ℂ) : Exact p.bits (E.round p z) := ⟨(E.near p).mem _, (E.near p).mem _⟩

theorem Exact.mono {p q : ℕ} (h : p ≤ q) {z : ℂ} (hz : Exact p z) : Exact q z := ⟨isFl_mono h hz.1, isFl_mono h hz.2⟩

theorem exact_real {p : ℕ} {x : ℝ} (h : IsFl p x) : Exact p (x : ℂ) := ⟨by simpa using h, by simpa using isFl_zero⟩

theorem fl_zero (E : Env) (p : Prec) : E.fl p 0 = 0 := (E.near p).self isFl_zero

theorem round_real (E : Env) (p : Prec) (x : ℝ) : E.round p (x : ℂ) = ((E.fl p x : ℝ) : ℂ) :=
  Complex.ext (by simp [Env.round]) (by simp [Env.round, fl_zero])

/-- The complex tensor an argument becomes. -/
noncomputable abbrev conv (E : Env) (a : Arg) : Tensor := toComplex E (asTensor E a)

/-- The precision an argument has of its own; Python numbers and integers get the default. -/
def Arg.prec (E : Env) : Arg → Prec
  | .tensor ⟨.real p, _, _⟩ | .tensor ⟨.cplx p, _, _⟩ => p
  | _ => E.dflt

theorem conv_prec (E : Env) (a : Arg) : (conv E a).prec = a.prec E := by
  rcases a with _ | _ | _ | _ | ⟨d, s, v⟩ <;> try rfl
  cases d <;> rfl

theorem conv_shape (E : Env) (a : Arg) : (conv E a).shape ≠ [] ↔ a.Dimensioned := by
  rcases a with _ | _ | _ | _ | ⟨d, s, v⟩ <;> try simp [conv, toComplex, asTensor, Arg.Dimensioned]
  cases d <;> simp

theorem conv_exact (E : Env) {a : Arg} (h : a.Valid) : Exact (a.prec E).bits (conv E a).val := by
  rcases a with b | n | x | z | ⟨d, s, v⟩
  · exact ⟨(E.near _).mem _, isFl_zero⟩
  · exact ⟨(E.near _).mem _, isFl_zero⟩
  · exact ⟨(E.near _).mem _, isFl_zero⟩
  · exact exact_round E _ _
  · cases d with
    | bool => exact ⟨(E.near _).mem _, isFl_zero⟩
    | int => exact ⟨(E.near _).mem _, isFl_zero⟩
    | real p => exact ⟨h.1.1, isFl_zero⟩
    | cplx p => exact h

/-- The entry of the complex tensor is the argument, rounded to the default precision unless the argument is a floating point tensor. -/
theorem conv_floating (E : Env) {a : Arg} (h : a.Valid) {q : Prec} (hf : a.IsFloating q) : (conv E a).val = a.value := by
  rcases a with b | n | x | z | ⟨d, s, v⟩
  · exact hf.elim
  · exact hf.elim
  · exact hf.elim
  · exact hf.elim
  · cases d with
    | bool => rcases hf with h | h <;> cases h
    | int => rcases hf with h | h <;> cases h
    | real p => exact Complex.ext rfl h.2.symm
    | cplx p => rfl

theorem conv_other (E : Env) {a : Arg} (h : a.Valid) (hf : ∀ q, ¬ a.IsFloating q) : (conv E a).val = E.round E.dflt a.value := by
  rcases a with b | n | x | z | ⟨d, s, v⟩
  · refine Complex.ext rfl ?_
    have : ((if b then 1 else 0 : ℂ)).im = 0 := by split <;> simp
    simp [conv, toComplex, asTensor, Env.round, Arg.value, this, fl_zero]
  · refine Complex.ext rfl ?_
    simp [conv, toComplex, asTensor, Env.round, Arg.value, fl_zero]
  · refine Complex.ext rfl ?_
    simp [conv, toComplex, asTensor, Env.round, Arg.value, fl_zero]
  · rfl
  · cases d with
    | bool =>
      refine Complex.ext rfl ?_
      have : v.im = 0 := by rcases h with h | h <;> simp_all
      simp [conv, toComplex, asTensor, Env.round, Arg.value, this, fl_zero]
    | int =>
      refine Complex.ext rfl ?_
      have : v.im = 0 := by
        obtain ⟨n, h⟩ := h
        simp_all
      simp [conv, toComplex, asTensor, Env.round, Arg.value, this, fl_zero]
    | real p => exact absurd (Or.inl rfl) (hf p)
    | cplx p => exact absurd (Or.inr rfl) (hf p)

theorem promote_bits (p q : Prec) : (promote p q).bits = max p.bits q.bits := by
  cases p <;> cases q <;> rfl

theorem bits_inj {p q : Prec} (h : p.bits = q.bits) : p = q := by
  cases p <;> cases q <;> simp_all [Prec.bits]

/-- The fold is the largest of the precisions. -/
theorem fold_max : ∀ (l : List Prec) (q : Prec), (∀ p ∈ l, p.bits ≤ q.bits) → (q ∈ l) → l.foldr promote .half = q := by
  have ub : ∀ l : List Prec, ∀ p ∈ l, p.bits ≤ (l.foldr promote .half).bits := by
    intro l
    induction l with
    | nil => intro p hp; cases hp
    | cons a l ih =>
      intro p hp
      rw [List.foldr_cons, promote_bits]
      rcases List.mem_cons.mp hp with rfl | hp
      · exact le_max_left _ _
      · exact (ih p hp).trans (le_max_right _ _)
  have lub : ∀ (l : List Prec) (q : Prec), (∀ p ∈ l, p.bits ≤ q.bits) → (l.foldr promote .half).bits ≤ q.bits := by
    intro l q
    induction l with
    | nil => intro _; cases q <;> simp [Prec.bits]
    | cons a l ih =>
      intro h
      rw [List.foldr_cons, promote_bits]
      exact max_le (h a (by simp)) (ih fun p hp => h p (by simp [hp]))
  intro l q h hq
  exact bits_inj (le_antisymm (lub l q h) (ub l q hq))

/-! ## The format of the computation -/

/-- `p` is the largest precision of the arguments that count: those with dimensions if there are any, all of them otherwise. -/
def IsCommon (E : Env) (args : List Arg) (p : Prec) : Prop :=
  ∃ counts : Arg → Prop, (∀ a, counts a ↔ (a.Dimensioned ∨ ∀ b ∈ args, ¬ b.Dimensioned)) ∧
    (∃ a ∈ args, counts a ∧ a.prec E = p) ∧ ∀ a ∈ args, counts a → (a.prec E).bits ≤ p.bits

theorem commonPrec_eq (E : Env) {args : List Arg} {p : Prec} (h : IsCommon E args p) : commonPrec (args.map (conv E)) = p := by
  obtain ⟨counts, hc, ⟨a, ha, hca, hap⟩, hle⟩ := h
  unfold commonPrec
  simp only
  by_cases hd : ∃ b ∈ args, b.Dimensioned
  · have hc' : ∀ b, counts b ↔ b.Dimensioned := fun b => by
      rw [hc]
      obtain ⟨b', hb', h'⟩ := hd
      exact ⟨fun h => h.elim id fun h => absurd h' (h b' hb'), Or.inl⟩
    rw [if_neg]
    · refine fold_max _ _ ?_ ?_
      · intro q hq
        simp only [List.mem_map, List.mem_filter, decide_eq_true_eq] at hq
        obtain ⟨t, ⟨⟨b, hb, rfl⟩, hs⟩, rfl⟩ := hq
        rw [conv_prec]
        exact hle b hb ((hc' b).mpr ((conv_shape E b).mp hs))
      · simp only [List.mem_map, List.mem_filter, decide_eq_true_eq]
        exact ⟨conv E a, ⟨⟨a, ha, rfl⟩, (conv_shape E a).mpr ((hc' a).mp hca)⟩, (conv_prec E a).trans hap⟩
    · intro he
      rw [List.isEmpty_iff, List.filter_eq_nil_iff] at he
      obtain ⟨b, hb, h'⟩ := hd
      exact he (conv E b) (List.mem_map_of_mem hb) (by simpa using (conv_shape E b).mpr h')
  · push Not at hd
    rw [if_pos]
    · refine fold_max _ _ ?_ ?_
      · intro q hq
        simp only [List.mem_map] at hq
        obtain ⟨t, ⟨b, hb, rfl⟩, rfl⟩ := hq
        rw [conv_prec]
        exact hle b hb ((hc b).mpr (Or.inr hd))
      · simp only [List.mem_map]
        exact ⟨conv E a, ⟨a, ha, rfl⟩, (conv_prec E a).trans hap⟩
    · rw [List.isEmpty_iff, List.filter_eq_nil_iff]
      intro t ht
      obtain ⟨b, hb, rfl⟩ := List.mem_map.mp ht
      simpa using fun h => hd b hb ((conv_shape E b).mp h)

theorem call_eq (E : Env) {args : List Arg} {p : Prec} (h : IsCommon E args p) (hp : p ≠ .half) :
    call E args = some (p, args.map fun a => E.round p (conv E a).val) := by
  unfold call implement
  rw [show (args.map fun a => toComplex E (asTensor E a)) = args.map (conv E) from rfl, commonPrec_eq E h]
  cases p with
  | half => exact absurd rfl hp
  | single => simp [List.map_map, Function.comp_def]
  | double => simp [List.map_map, Function.comp_def]

/-- **C120**: the call computes in the largest precision of the arguments that have dimensions (of all of them if none has), Python numbers and integers counting as the default dtype, and is an error if that is half precision. -/
theorem C120_format (E : Env) {args : List Arg} {p : Prec} (h : IsCommon E args p) :
    (p = .half → call E args = none) ∧ (p ≠ .half → ∃ vs, call E args = some (p, vs) ∧ vs.length = args.length) := by
  constructor
  · rintro rfl
    unfold call implement
    rw [show (args.map fun a => toComplex E (asTensor E a)) = args.map (conv E) from rfl, commonPrec_eq E h]
  · intro hp
    exact ⟨_, call_eq E h hp, by simp⟩

/-- A double precision tensor with dimensions makes it double precision. -/
theorem common_double (E : Env) {args : List Arg} (h : ∃ a ∈ args, a.IsFloating .double ∧ a.Dimensioned) : IsCommon E args .double := by
  obtain ⟨a, ha, hf, hd⟩ := h
  refine ⟨fun a => a.Dimensioned ∨ ∀ b ∈ args, ¬ b.Dimensioned, fun _ => Iff.rfl, ⟨a, ha, Or.inl hd, ?_⟩, fun b _ _ => bits_le_double _⟩
  rcases a with _ | _ | _ | _ | ⟨d, s, v⟩
  · exact hf.elim
  · exact hf.elim
  · exact hf.elim
  · exact hf.elim
  · rcases hf with h | h <;> simp only at h <;> subst h <;> rfl

/-! ## What reaches the computation -/

/-- **C120, partial**: with a double precision tensor (with dimensions) among the arguments the call computes in double precision and every floating point tensor is used exactly; Python numbers and integers however are used *rounded to the default dtype*.

Missing for the full property: see `C120_false`. -/
theorem C120_double_partial (E : Env) {args : List Arg} (hv : ∀ a ∈ args, a.Valid)
    (h : ∃ a ∈ args, a.IsFloating .double ∧ a.Dimensioned) :
    ∃ vs, call E args = some (.double, vs) ∧ List.Forall₂ (fun a v =>
      (∀ q, a.IsFloating q → v = a.value) ∧ ((∀ q, ¬ a.IsFloating q) → v = E.round E.dflt a.value)) args vs := by
  refine ⟨_, call_eq E (common_double E h) (by decide), ?_⟩
  rw [List.forall₂_map_right_iff, List.forall₂_same]
  intro a ha
  have he : E.round .double (conv E a).val = (conv E a).val :=
    round_self E ((conv_exact E (hv a ha)).mono (bits_le_double _))
  rw [he]
  exact ⟨fun q hq => conv_floating E (hv a ha) hq, conv_other E (hv a ha)⟩

/-- **C120, partial**: if the default dtype is double precision as well, all the arguments are used exactly, integers up to `2^53`. -/
theorem C120_default_double_partial (E : Env) (hE : E.dflt = .double) {args : List Arg} (hv : ∀ a ∈ args, a.Valid)
    (h : ∃ a ∈ args, a.IsFloating .double ∧ a.Dimensioned)
    (hi : ∀ a ∈ args, ∀ n : ℤ, a.value = n → |n| < 2 ^ 53) :
    call E args = some (.double, args.map Arg.value) := by
  rw [call_eq E (common_double E h) (by decide)]
  congr 2
  refine List.map_congr_left fun a ha => ?_
  rw [round_self E (p := .double) ((conv_exact E (hv a ha)).mono (bits_le_double _))]
  by_cases hf : ∃ q, a.IsFloating q
  · exact conv_floating E (hv a ha) hf.choose_spec
  · push Not at hf
    rw [conv_other E (hv a ha) hf, hE]
    refine round_self E ?_
    have key : ∀ n : ℤ, a.value = n → Exact 53 a.value := fun n hn => by
      rw [hn]
      exact ⟨by simpa using isFl_int (hi a ha n hn), by simpa using isFl_zero⟩
    rcases a with b | n | x | z | ⟨d, s, v⟩
    · exact key (if b then 1 else 0) (by cases b <;> simp [Arg.value])
    · exact key n rfl
    · exact exact_real (hv _ ha)
    · exact hv _ ha
    · cases d with
      | bool =>
        rcases hv _ ha with h | h
        · exact key 0 (by simpa [Arg.value] using h)
        · exact key 1 (by simpa [Arg.value] using h)
      | int =>
        obtain ⟨n, h⟩ := hv _ ha
        exact key n h
      | real p => exact absurd (Or.inl rfl) (hf p)
      | cplx p => exact absurd (Or.inr rfl) (hf p)

/-- **C120, partial**: with a single precision tensor with dimensions, and none of double precision, everything is used in single precision, also double precision tensors without dimensions. -/
theorem C120_single_partial (E : Env) (hE : E.dflt = .single) {args : List Arg} (hv : ∀ a ∈ args, a.Valid)
    (h : ∃ a ∈ args, a.IsFloating .single ∧ a.Dimensioned) (hd : ∀ a ∈ args, a.IsFloating .double → ¬ a.Dimensioned) :
    call E args = some (.single, args.map fun a => E.round .single a.value) := by
  have hc : IsCommon E args .single := by
    obtain ⟨a, ha, hf, hdim⟩ := h
    refine ⟨fun a => a.Dimensioned ∨ ∀ b ∈ args, ¬ b.Dimensioned, fun _ => Iff.rfl, ⟨a, ha, Or.inl hdim, ?_⟩, ?_⟩
    · rcases a with _ | _ | _ | _ | ⟨d, s, v⟩
      · exact hf.elim
      · exact hf.elim
      · exact hf.elim
      · exact hf.elim
      · rcases hf with h | h <;> simp only at h <;> subst h <;> rfl
    · intro b hb hcb
      have hbd : b.Dimensioned := hcb.elim id fun h => absurd hdim (h a ha)
      have h1 := hd b hb
      rcases b with _ | _ | _ | _ | ⟨d, s, v⟩
      · simp [Arg.prec, hE]
      · simp [Arg.prec, hE]
      · simp [Arg.prec, hE]
      · simp [Arg.prec, hE]
      · cases d with
        | bool => simp [Arg.prec, hE]
        | int => simp [Arg.prec, hE]
        | real p =>
          cases p with
          | double => exact absurd hbd (h1 (Or.inl rfl))
          | _ => simp [Arg.prec, Prec.bits]
        | cplx p =>
          cases p with
          | double => exact absurd hbd (h1 (Or.inr rfl))
          | _ => simp [Arg.prec, Prec.bits]
  rw [call_eq E hc (by decide)]
  congr 2
  refine List.map_congr_left fun a ha => ?_
  by_cases hf : ∃ q, a.IsFloating q
  · rw [conv_floating E (hv a ha) hf.choose_spec]
  · push Not at hf
    rw [conv_other E (hv a ha) hf, hE]
    exact round_self E (exact_round E _ _)

/-- **C120**: the size of the rounding of a Python float beside a double precision tensor, by the default dtype. -/
theorem C120_float_error (E : Env) {x : ℝ} (hx : IsFl 53 x) (t : Tensor) (ht : Arg.Valid (.tensor t))
    (hf : Arg.IsFloating .double (.tensor t)) (hd : t.shape ≠ []) :
    ∃ y : ℝ, call E [.pyFloat x, .tensor t] = some (.double, [(y : ℂ), t.val]) ∧ |y - x| ≤ |x| / 2 ^ E.dflt.bits ∧
      (y = x ↔ IsFl E.dflt.bits x) := by
  obtain ⟨vs, hc, hvs⟩ := C120_double_partial E (args := [.pyFloat x, .tensor t]) (by
    intro a ha
    simp only [List.mem_cons, List.not_mem_nil, or_false] at ha
    rcases ha with rfl | rfl
    · exact hx
    · exact ht) ⟨_, by simp, hf, hd⟩
  rw [List.forall₂_cons_left_iff] at hvs
  obtain ⟨v, vs', ⟨_, h1⟩, h2, rfl⟩ := hvs
  rw [List.forall₂_cons_left_iff] at h2
  obtain ⟨w, vs'', ⟨h3, _⟩, h4, rfl⟩ := h2
  rw [List.forall₂_nil_left_iff] at h4
  subst h4
  refine ⟨E.fl E.dflt x, ?_, (E.near _).error (bits_pos _) x, ?_⟩
  · rw [hc, h1 fun q h => h, h3 _ hf]
    simp only [Arg.value, round_real]
  · exact ⟨fun h => h ▸ (E.near _).mem x, fun h => (E.near _).self h⟩

/-! ## What fails -/

/-- `1 + 2^-26` has more than 24 significant bits. -/
theorem not_single : ¬ IsFl 24 (1 + (2 : ℝ) ^ (-26 : ℤ)) := by
  intro h
  have := gap h (isFl_one (p := 24) (by norm_num)) (by norm_num)
  norm_num at this

theorem is_double : IsFl 53 (1 + (2 : ℝ) ^ (-26 : ℤ)) := ⟨2 ^ 26 + 1, -26, by norm_num, by norm_num⟩

theorem isFl_one_double : IsFl Prec.double.bits (1 : ℂ).re := by
  rw [Complex.one_re]
  exact isFl_one (bits_pos _)

/-- **C120 is false of the code**: with the default dtype single precision (PyTorch's default), Python floats passed along with a double precision tensor lose half of their digits: whatever the tensor, `1 + 2^-26` reaches the kernel as 1. -/
theorem C120_false (E : Env) (hE : E.dflt = .single) :
    ¬ ∀ args : List Arg, (∀ a ∈ args, a.Valid) → (∃ a ∈ args, a.IsFloating .double ∧ a.Dimensioned) →
      call E args = some (.double, args.map Arg.value) := by
  intro h
  have hx := is_double
  obtain ⟨y, hc, -, hy⟩ := C120_float_error E hx ⟨.real .double, [3], 1⟩
    ⟨⟨isFl_one_double, by simpa using isFl_zero⟩, by simp⟩ (Or.inl rfl) (by simp)
  have h' := h [.pyFloat (1 + (2 : ℝ) ^ (-26 : ℤ)), .tensor ⟨.real .double, [3], 1⟩] (by
    intro a ha
    simp only [List.mem_cons, List.not_mem_nil, or_false] at ha
    rcases ha with rfl | rfl
    · exact hx
    · exact ⟨⟨isFl_one_double, by simpa using isFl_zero⟩, by simp⟩) ⟨.tensor ⟨.real .double, [3], 1⟩, by simp, Or.inl rfl, by simp [Arg.Dimensioned]⟩
  rw [hc] at h'
  simp only [List.map_cons, List.map_nil, Option.some.injEq, Prod.mk.injEq, true_and, List.cons.injEq, and_true, Arg.value] at h'
  have := hy.mp (by exact_mod_cast h')
  rw [hE] at this
  exact not_single this

/-- The error is as large as single precision allows: `1 + 2^-26` is used as 1. -/
theorem C120_float_lost (E : Env) (hE : E.dflt = .single) (t : Tensor) (ht : Arg.Valid (.tensor t))
    (hf : Arg.IsFloating .double (.tensor t)) (hd : t.shape ≠ []) :
    call E [.pyFloat (1 + (2 : ℝ) ^ (-26 : ℤ)), .tensor t] = some (.double, [1, t.val]) := by
  obtain ⟨y, hc, -, -⟩ := C120_float_error E is_double t ht hf hd
  obtain ⟨vs, hc', hvs⟩ := C120_double_partial E (args := [.pyFloat (1 + (2 : ℝ) ^ (-26 : ℤ)), .tensor t]) (by
    intro a ha
    simp only [List.mem_cons, List.not_mem_nil, or_false] at ha
    rcases ha with rfl | rfl
    · exact is_double
    · exact ht) ⟨_, by simp, hf, hd⟩
  rw [hc] at hc'
  simp only [Option.some.injEq, Prod.mk.injEq, true_and] at hc'
  subst hc'
  rw [List.forall₂_cons] at hvs
  have h1 := hvs.1.2 fun q h => h
  rw [hc, h1, hE]
  have : E.fl .single (1 + (2 : ℝ) ^ (-26 : ℤ)) = 1 :=
    (E.near .single).eq_of_close (isFl_one (by norm_num [Prec.bits])) (by norm_num [Prec.bits])
  have h2 := round_real E .single (1 + (2 : ℝ) ^ (-26 : ℤ))
  rw [this] at h2
  simp only [Arg.value]
  rw [h2]
  simp

/-- Integers are concerned as well, of Python and of integer tensors: beyond `2^24` they need not be used exactly in a double precision call. -/
theorem C120_int_lost (E : Env) (hE : E.dflt = .single) (s : List ℕ) (t : Tensor) (ht : Arg.Valid (.tensor t))
    (hf : Arg.IsFloating .double (.tensor t)) (hd : t.shape ≠ []) :
    ∃ v, call E [.tensor ⟨.int, s, ((2 ^ 24 + 1 : ℤ) : ℂ)⟩, .tensor t] = some (.double, [v, t.val]) ∧ v ≠ ((2 ^ 24 + 1 : ℤ) : ℂ) := by
  obtain ⟨vs, hc, hvs⟩ := C120_double_partial E (args := [.tensor ⟨.int, s, ((2 ^ 24 + 1 : ℤ) : ℂ)⟩, .tensor t]) (by
    intro a ha
    simp only [List.mem_cons, List.not_mem_nil, or_false] at ha
    rcases ha with rfl | rfl
    · exact ⟨_, rfl⟩
    · exact ht) ⟨_, by simp, hf, hd⟩
  rw [List.forall₂_cons_left_iff] at hvs
  obtain ⟨v, vs', ⟨_, h1⟩, h2, rfl⟩ := hvs
  rw [List.forall₂_cons_left_iff] at h2
  obtain ⟨w, vs'', ⟨h3, _⟩, h4, rfl⟩ := h2
  rw [List.forall₂_nil_left_iff] at h4
  subst h4
  refine ⟨v, by rw [hc, h3 _ hf]; rfl, ?_⟩
  rw [h1 (by rintro q (h | h) <;> cases h), hE]
  intro h
  have h' : E.fl .single ((2 ^ 24 + 1 : ℤ) : ℝ) = ((2 ^ 24 + 1 : ℤ) : ℝ) := by
    have := congrArg Complex.re h
    simpa only [Env.round, Arg.value, Complex.intCast_re] using this
  have hm := (E.near .single).mem ((2 ^ 24 + 1 : ℤ) : ℝ)
  rw [h'] at hm
  have hg := gap (p := 24) hm ⟨1, 24, by norm_num, rfl⟩ (by norm_num)
  have hg2 := gap (p := 24) ⟨1, 24, by norm_num, rfl⟩ hm (by norm_num)
  norm_num at hg hg2

/-- `None` stays `None`. -/
theorem C120_none (E : Env) (args : List (Option Arg)) (i : ℕ) (h : args[i]? = some none) : (asComplexTensors E args)[i]? = some none := by
  simp [asComplexTensors, h]

/-! ## Non-vacuity -/

/-- Concrete rounding, with PyTorch's default settings. -/
noncomputable def torchEnv : Env := ⟨fun p => rnd p.bits, fun p => nearest_rnd (bits_pos p), .single⟩

/-- A call as in `ellippi(0.3, m)`, with the Python float `1 + 2^-26` beside a double tensor of shape (3,). -/
example : call torchEnv [.pyFloat (1 + (2 : ℝ) ^ (-26 : ℤ)), .tensor ⟨.real .double, [3], 1 / 2⟩] = some (.double, [1, 1 / 2]) :=
  C120_float_lost torchEnv rfl _ ⟨⟨⟨1, -1, by norm_num [Prec.bits], by norm_num⟩, by simpa using isFl_zero⟩, by simp⟩ (Or.inl rfl) (by simp)

/-- Two Python integers: computed in the default precision. -/
example : IsCommon torchEnv [.pyInt 1, .pyInt 2] .single :=
  ⟨fun a => a.Dimensioned ∨ ∀ b ∈ [Arg.pyInt 1, Arg.pyInt 2], ¬ b.Dimensioned, fun _ => Iff.rfl,
    ⟨.pyInt 1, by simp, Or.inr (by simp [Arg.Dimensioned]), rfl⟩, by intro a ha _; simp at ha; rcases ha with rfl | rfl <;> rfl⟩

/-- The tensor of shape (3,) with entries 1/2 in double precision, for the cases below. -/
noncomputable def exT : Tensor := ⟨.real .double, [3], 1 / 2⟩
theorem exT_valid : Arg.Valid (.tensor exT) := ⟨⟨⟨1, -1, by norm_num [Prec.bits], by norm_num [exT]⟩, by simpa [exT] using isFl_zero⟩, by simp [exT]⟩
theorem exT_floating : Arg.IsFloating .double (.tensor exT) := Or.inl rfl
theorem ex_valid : ∀ a ∈ [.pyInt 3, .tensor exT], Arg.Valid a := by
  intro a ha
  simp only [List.mem_cons, List.not_mem_nil, or_false] at ha
  rcases ha with rfl | rfl
  · trivial
  · exact exT_valid

/-- `C120_format`: two Python integers. -/
example := C120_format torchEnv (args := [.pyInt 1, .pyInt 2]) (p := .single)
  ⟨fun a => a.Dimensioned ∨ ∀ b ∈ [Arg.pyInt 1, Arg.pyInt 2], ¬ b.Dimensioned, fun _ => Iff.rfl,
    ⟨.pyInt 1, by simp, Or.inr (by simp [Arg.Dimensioned]), rfl⟩, by intro a ha _; simp at ha; rcases ha with rfl | rfl <;> rfl⟩

/-- `C120_double_partial`, `C120_default_double_partial`: the integer 3 beside a double tensor. -/
example := C120_double_partial torchEnv (args := [.pyInt 3, .tensor exT]) ex_valid
  ⟨.tensor exT, by simp, exT_floating, by simp [Arg.Dimensioned, exT]⟩
example := C120_default_double_partial { torchEnv with dflt := .double } rfl (args := [.pyInt 3, .tensor exT]) ex_valid
  ⟨.tensor exT, by simp, exT_floating, by simp [Arg.Dimensioned, exT]⟩ (by
    intro a ha n hn
    simp only [List.mem_cons, List.not_mem_nil, or_false] at ha
    rcases ha with rfl | rfl
    · have : (3 : ℂ) = n := by simpa [Arg.value] using hn
      have : n = 3 := by exact_mod_cast this.symm
      subst this; norm_num
    · have h2 : (1 : ℂ) / 2 = n := by simpa [Arg.value, exT] using hn
      have h3 : (1 : ℂ) = ((2 * n : ℤ) : ℂ) := by push_cast; rw [← h2]; norm_num
      have : (1 : ℤ) = 2 * n := by exact_mod_cast h3
      omega)

/-- `C120_single_partial`: a single tensor beside a double tensor without dimensions. -/
example := C120_single_partial torchEnv rfl (args := [.tensor ⟨.real .single, [3], 0⟩, .tensor ⟨.real .double, [], 0⟩]) (by
    intro a ha
    simp only [List.mem_cons, List.not_mem_nil, or_false] at ha
    rcases ha with rfl | rfl <;> exact ⟨⟨by simpa using isFl_zero, by simpa using isFl_zero⟩, rfl⟩)
  ⟨.tensor ⟨.real .single, [3], 0⟩, by simp, Or.inl rfl, by simp [Arg.Dimensioned]⟩ (by
    intro a ha h
    simp only [List.mem_cons, List.not_mem_nil, or_false] at ha
    rcases ha with rfl | rfl
    · simp [Arg.IsFloating] at h
    · simp [Arg.Dimensioned])

/-- `C120_float_error`, `C120_false`, `C120_int_lost` in the usual environment. -/
example := C120_float_error torchEnv (x := 1 / 2) ⟨1, -1, by norm_num, by norm_num⟩ exT exT_valid exT_floating (by simp [exT])
example := C120_false torchEnv rfl
example := C120_int_lost torchEnv rfl [2] exT exT_valid exT_floating (by simp [exT])

end Verif.Dtype
