import Verif.Quant.SpecialModel
import Verif.Quant.Props

/-! # C132: `torch.where` and `torch.gradient` of quantities -/

namespace Verif.Quant.Special

open Verif.Units (SetOrder)

variable {V : Type} [Ring V] [Algebra ℝ V]

/-- The kernel of `Tensor.where(self, condition, other)`: `sel c x y` picks from `x` or `y` by the condition. -/
def kWhere (sel : V → V → V → V) : Kernel V
  | [some x, some c, some y] => .ok [(sel c x y, true)]
  | _ => .error .torch

theorem where_run (σ : SetOrder) (sel : V → V → V → V) (c : V) (a b : Leaf V) (x : V) (hx : a.Stores x)
    (r : Except Err (Leaf V)) (hr : convert a.getUnit b = r) :
    torchCall σ "where" (kWhere sel) [[a], [.num c], [b]] = (do
      let b' ← r
      let y ← b'.raw
      let outs ← kWhere sel [some x, some c, y]
      return outs.map (post (some a.getUnit))) := by
  have hx' : a.raw = .ok (some x) := hx
  rw [torchCall_dimSpec (f := .where_) _ _ (by decide +kernel) rfl (by decide +kernel),
    pairs_three .where_ _ _ _ (.name "unit") .skip (.name "unit") rfl]
  have hc : (Leaf.num c : Leaf V).raw = .ok (some c) := rfl
  simp only [call, run, step, get?_nil, get?_set', hr, bind, Except.bind, pure, Except.pure, ↓reduceIte]
  cases r with
  | error e => rfl
  | ok b' =>
    simp only [raws, hx', hc, bind, Except.bind, pure, Except.pure]
    cases b'.raw with
    | error e => rfl
    | ok y =>
      simp only
      cases y with
      | none => simp [kWhere]
      | some y =>
        simp [kWhere, Fam.spec, RetSpec.expand, resolveAll, Ret.resolve, get?_set', bind, Except.bind, pure, Except.pure]

/-- **C132** `torch.where(cond, x, y)` with tensors `x`, `y` of one dimension returns a quantity in the unit of `x` that
measures `x` or `y` as the condition says, whatever their units; further positional arguments change nothing. -/
theorem C132_where (σ : SetOrder) (sel : V → V → V → V)
    (hsel : ∀ (k : ℝ) c x y, sel c (k • x) (k • y) = k • sel c x y) (c : V) (a b : Leaf V) (ha : a.Ok) (hb : b.Ok)
    (hat : a.tensor) {A B : V} (hA : a.si = some A) (hB : b.si = some B) (hd : ∀ k, b.dim k = a.dim k)
    (more : List (Leaf V)) :
    ∃ r, whereCall σ (kWhere sel) (.num c :: a :: b :: more) = .ok [.q r a.getUnit] ∧
      a.getUnit.value • r = sel c A B := by
  obtain ⟨x, hx, rfl⟩ := tensor_raw hat hA
  obtain ⟨b', y, h1, h2, rfl⟩ := convert_ok (getUnit_wf ha) (getUnit_pos ha) hb hB (by
    intro k; rw [hd, getUnit_exp])
  refine ⟨sel c x y, ?_, (hsel _ _ _ _).symm⟩
  have h3 := where_run σ sel c a b x hx _ h1
  have : whereCall σ (kWhere sel) (.num c :: a :: b :: more) =
      lift (torchCall σ "where" (kWhere sel) [[a], [.num c], [b]]) := by
    cases a <;> simp_all [Leaf.tensor, whereCall]
  rw [this, h3]
  simp [h2, kWhere, bind, Except.bind, pure, Except.pure, post, lift]

/-- **C132** and of different dimensions it raises `UnitError`. -/
theorem C132_where_unitError (σ : SetOrder) (sel : V → V → V → V) (c : V) (a b : Leaf V) (ha : a.Ok) (hb : b.Ok)
    (hat : a.tensor) (hbn : b.numeric) (k : Units.Dim) (hk : b.dim k ≠ a.dim k) (more : List (Leaf V)) :
    whereCall σ (kWhere sel) (.num c :: a :: b :: more) = .error (.call .unitError) := by
  obtain ⟨x, hx⟩ := tensor_stores hat
  have h1 := (convert_cases (getUnit_wf ha) (getUnit_pos ha) hb hbn).2 (by
    intro h; exact hk (by rw [h k, getUnit_exp]))
  have h3 := where_run σ sel c a b x hx _ h1
  have : whereCall σ (kWhere sel) (.num c :: a :: b :: more) =
      lift (torchCall σ "where" (kWhere sel) [[a], [.num c], [b]]) := by
    cases a <;> simp_all [Leaf.tensor, whereCall]
  rw [this, h3]
  rfl

/-- **C132** fewer than three positional arguments - `torch.where(cond)`, or `x` and `y` given by keyword - raise
`IndexError`; a first branch that is a `Unit`, or no tensor at all, raises `TypeError` although the second branch may
be a tensor. -/
theorem C132_where_rejects (σ : SetOrder) (F : Kernel V) :
    (∀ args : List (Leaf V), args.length < 3 → whereCall σ F args = .error .index) ∧
    (∀ (cond y : Leaf V) (more : List (Leaf V)) (u : Units.Unit),
      whereCall σ F (cond :: .unit u :: y :: more) = .error .notATensor ∧
      whereCall σ F (cond :: .other :: y :: more) = .error .notATensor) := by
  refine ⟨?_, fun _ _ _ _ => ⟨rfl, rfl⟩⟩
  intro args h
  match args, h with
  | [], _ => rfl
  | [_], _ => rfl
  | [_, _], _ => rfl

/-- 1 km where the condition holds, 500 m elsewhere: in kilometres. -/
example : ∃ r, whereCall (V := Bool → ℝ) SetOrder.id (kWhere fun c x y i => if c i ≠ 0 then x i else y i)
      [.num (fun i => if i then 1 else 0), .q (fun _ => 1) ⟨[("L", 1)], 1000⟩, .q (fun _ => 500) ⟨[("L", 1)], 1⟩] =
        .ok [.q r ⟨[("L", 1)], 1000⟩] ∧ r true = 1 ∧ r false = 1 / 2 := by
  obtain ⟨r, h1, h2⟩ := C132_where (V := Bool → ℝ) SetOrder.id (fun c x y i => if c i ≠ 0 then x i else y i) (by
      intro k c x y
      funext i
      simp only [Pi.smul_apply, smul_eq_mul]
      split <;> rfl)
    (fun i => if i then 1 else 0) (.q (fun _ => 1) ⟨[("L", 1)], 1000⟩) (.q (fun _ => 500) ⟨[("L", 1)], 1⟩)
    ⟨by constructor <;> simp, by norm_num⟩ ⟨by constructor <;> simp, by norm_num⟩ trivial rfl rfl (fun _ => rfl) []
  refine ⟨r, h1, ?_, ?_⟩
  · have := congrFun h2 true
    simp [Leaf.getUnit] at this
    linarith
  · have := congrFun h2 false
    simp [Leaf.getUnit] at this
    linarith

/-! ### `gradient` -/

/-- Kernels of `torch.gradient` along one dimension: `g d x h` differentiates `x` along `d` with spacing `h`. -/
def kGrad (g : ℤ → V → V → V) (all : Kernel V) : Option ℤ → Kernel V
  | some d => fun xs => match xs with
    | [some x, some h] => .ok [(g d x h, true)]
    | _ => .error .torch
  | none => all

/-- Pairs of results and expectations. -/
def GradOk (σ : SetOrder) (g : ℤ → V → V → V) (a : Leaf V) (A : V) (d : ℤ) (sp : Leaf V) (r : Res V) : Prop :=
  ∃ x w S, r = .q x w ∧ a.getUnit.div σ sp.getUnit = .ok w ∧ sp.si = some S ∧ w.value • x = g d A S

theorem gradientPlain_ok (σ : SetOrder) (g : ℤ → V → V → V) (all : Kernel V)
    (hg : ∀ (c e : ℝ) d x h, c ≠ 0 → e ≠ 0 → g d (c • x) (e • h) = (c / e) • g d x h) (a : Leaf V) (ha : a.Ok)
    (hat : a.tensor) {A : V} (hA : a.si = some A) (sp : Leaf V) (hs : sp.Ok) (hst : sp.tensor) (d : ℤ) :
    ∃ r, gradientPlain σ (kGrad g all) a (some d) [sp] = .ok [r] ∧ GradOk σ g a A d sp r := by
  obtain ⟨y, hy⟩ := tensor_stores hst
  have hS := stores_si hy
  obtain ⟨r, w, h1, h2, h3⟩ := C19_div σ "gradient" (by decide +kernel) (by decide +kernel) (g d)
    (fun c e x h hc he => hg c e d x h hc he) a sp ha hs hat hst hA hS
  refine ⟨.q r w, ?_, r, w, _, rfl, h1, hS, h3⟩
  rw [gradientPlain, ← h2]
  congr 1

/-- **C132** one dimension at a time: with as many spacings as dimensions, `torch.gradient` returns one quantity per
dimension, in the unit of the argument over that of the spacing of this dimension, measuring the derivative of what is
measured. -/
theorem C132_gradient_seq (σ : SetOrder) (g : ℤ → V → V → V) (all : Kernel V)
    (hg : ∀ (c e : ℝ) d x h, c ≠ 0 → e ≠ 0 → g d (c • x) (e • h) = (c / e) • g d x h) (a : Leaf V) (ha : a.Ok)
    (hat : a.tensor) {A : V} (hA : a.si = some A) (ndim : ℕ) (sps : List (Leaf V)) (ds : List ℤ)
    (hlen : sps.length = ds.length) (hs : ∀ s ∈ sps, s.Ok ∧ s.tensor) :
    ∃ rs, gradientCall σ (kGrad g all) a ndim (.seq ds) (.seq sps) = .ok rs ∧ rs.length = ds.length ∧
      ∀ (i : ℕ) (h1 : i < rs.length) (h2 : i < ds.length) (h3 : i < sps.length), GradOk σ g a A ds[i] sps[i] rs[i] := by
  show ∃ rs, gradientEach σ (kGrad g all) a sps ds = .ok rs ∧ _
  induction sps generalizing ds with
  | nil =>
    cases ds with
    | nil => exact ⟨[], rfl, rfl, fun i h1 => absurd h1 (by simp)⟩
    | cons d ds => simp at hlen
  | cons s sps ih =>
    cases ds with
    | nil => simp at hlen
    | cons d ds =>
      obtain ⟨r, h1, h2⟩ := gradientPlain_ok σ g all hg a ha hat hA s (hs s (by simp)).1 (hs s (by simp)).2 d
      obtain ⟨rs, h3, h4, h5⟩ := ih ds (by simpa using hlen) (fun t ht => hs t (by simp [ht]))
      refine ⟨r :: rs, ?_, by simp [h4], ?_⟩
      · simp [gradientEach, h1, h3, lift, bind, Except.bind, pure, Except.pure]
      · intro i i1 i2 i3
        cases i with
        | zero => exact h2
        | succ i => exact h5 i (by simpa using i1) (by simpa using i2) (by simpa using i3)

/-- **C132** the other ways of giving the arguments: one spacing is used for every dimension, no spacing is 1, and no
`dim` is every dimension of the tensor in order. -/
theorem C132_gradient_defaults (σ : SetOrder) (F : Option ℤ → Kernel V) (a s : Leaf V) (ndim : ℕ) (ds : List ℤ)
    (sp : SpArg V) :
    gradientCall σ F a ndim (.seq ds) (.one s) = gradientCall σ F a ndim (.seq ds) (.seq (List.replicate ds.length s)) ∧
    gradientCall σ F a ndim (.seq ds) .absent =
      gradientCall σ F a ndim (.seq ds) (.seq (List.replicate ds.length (.num 1))) ∧
    gradientCall σ F a ndim .absent sp = gradientCall σ F a ndim (.seq ((List.range ndim).map Int.ofNat)) sp :=
  ⟨rfl, rfl, rfl⟩

/-- **C132** a different number of spacings and dimensions raises, whatever the kernel. -/
theorem C132_gradient_unequal (σ : SetOrder) (F : Option ℤ → Kernel V) (a : Leaf V) (ndim : ℕ) (sps : List (Leaf V))
    (ds : List ℤ) (hlen : sps.length ≠ ds.length) :
    ∃ e, gradientCall σ F a ndim (.seq ds) (.seq sps) = .error e := by
  show ∃ e, gradientEach σ F a sps ds = .error e
  induction sps generalizing ds with
  | nil =>
    cases ds with
    | nil => simp at hlen
    | cons d ds => exact ⟨_, rfl⟩
  | cons s sps ih =>
    cases ds with
    | nil => exact ⟨_, rfl⟩
    | cons d ds =>
      obtain ⟨e, he⟩ := ih ds (by simpa using hlen)
      simp only [gradientEach, bind, Except.bind, pure, Except.pure, he]
      cases lift (gradientPlain σ F a (some d) [s]) with
      | error e => exact ⟨e, rfl⟩
      | ok r => cases r with
        | nil => exact ⟨_, rfl⟩
        | cons g gs => exact ⟨_, rfl⟩

/-- A length differentiated along a dimension spaced by 2 s and one spaced by 5 (no unit): units km/s and km. -/
example : ∃ r₁ r₂ w₁, gradientCall (V := Unit → ℝ) SetOrder.id (kGrad (fun _ x h => x / h) fun _ => .error .torch)
      (.q (fun _ => 10) ⟨[("L", 1)], 1000⟩) 2 .absent (.seq [.q (fun _ => 2) ⟨[("T", 1)], 1⟩, .num (fun _ => 5)]) =
        .ok [.q r₁ w₁, r₂] ∧ w₁.value • r₁ = fun _ => 5000 := by
  obtain ⟨rs, h1, h2, h3⟩ := C132_gradient_seq (V := Unit → ℝ) SetOrder.id (fun _ x h => x / h) (fun _ => .error .torch)
    (by intro c e d x h hc he; exact div_scales c e x h hc he) (.q (fun _ => 10) ⟨[("L", 1)], 1000⟩)
    ⟨by constructor <;> simp, by norm_num⟩ trivial rfl 2
    [.q (fun _ => 2) ⟨[("T", 1)], 1⟩, .num (fun _ => 5)] ((List.range 2).map Int.ofNat) (by simp)
    (by intro s hs
        simp only [List.mem_cons, List.not_mem_nil, or_false] at hs
        rcases hs with rfl | rfl
        · exact ⟨⟨by constructor <;> simp, by norm_num⟩, trivial⟩
        · exact ⟨trivial, trivial⟩)
  obtain ⟨r1, r2, rfl⟩ : ∃ r1 r2, rs = [r1, r2] := by
    match rs, h2 with
    | [r1, r2], _ => exact ⟨r1, r2, rfl⟩
  obtain ⟨x, w, S, e1, e2, e3, e4⟩ := h3 0 (by simp) (by simp) (by simp)
  simp only [List.getElem_cons_zero] at e1 e2 e3 e4
  refine ⟨x, r2, w, by rw [(C132_gradient_defaults _ _ _ (.num 1) 2 [] _).2.2, h1, e1], ?_⟩
  rw [e4]
  obtain rfl := Option.some.inj e3
  funext i
  simp only [Pi.smul_apply, Pi.div_apply, smul_eq_mul]
  norm_num

end Verif.Quant.Special
