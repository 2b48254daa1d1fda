import Mathlib.Data.List.Forall2
import Mathlib.Data.List.GetD
import Mathlib.Data.List.Basic

/-! # Tensors with shapes, and PyTorch's broadcasting

Shapes and indices are listed **from the last dimension to the first**, because PyTorch aligns shapes at the last
dimension: a shape `[5, 4]` here is `torch.Size([4, 5])`. -/

namespace Verif.Tensor

/-- A shape, last dimension first. -/
abbrev Shape := List ℕ

/-- A tensor: its shape and its entry at every index. -/
structure Tens (α : Type) where
  shape : Shape
  get : List ℕ → α

/-- `i` is an index of the shape `s`. -/
def Valid (s : Shape) (i : List ℕ) : Prop := List.Forall₂ (· < ·) i s

/-- `torch.broadcast_shapes` of two shapes; `none`: `RuntimeError`. -/
def bc : Shape → Shape → Option Shape
  | [], t => some t
  | s, [] => some s
  | a :: s, b :: t =>
    if a = b then (bc s t).map (a :: ·)
    else if a = 1 then (bc s t).map (b :: ·)
    else if b = 1 then (bc s t).map (a :: ·)
    else none

/-- `torch.broadcast_shapes(*shapes)`. -/
def bcAll : List Shape → Option Shape
  | [] => some []
  | s :: l => (bcAll l).bind (bc s)

/-- The index of a tensor of shape `s` that stands at index `i` of a shape `s` is broadcast to. -/
def proj : Shape → List ℕ → List ℕ
  | [], _ => []
  | _ :: _, [] => []
  | d :: s, k :: i => (if d = 1 then 0 else k) :: proj s i

/-- An operation entry by entry, with broadcasting. -/
def map2 {α β γ : Type} (f : α → β → γ) (s : Tens α) (t : Tens β) : Option (Tens γ) :=
  (bc s.shape t.shape).map fun Z => ⟨Z, fun i => f (s.get (proj s.shape i)) (t.get (proj t.shape i))⟩

/-- An operation on every entry. -/
def Tens.map {α β : Type} (f : α → β) (t : Tens α) : Tens β := ⟨t.shape, fun i => f (t.get i)⟩

/-! ### Order on shapes -/

/-- A tensor of shape `s` can be expanded to shape `Z`. -/
def Le : Shape → Shape → Prop
  | [], _ => True
  | _ :: _, [] => False
  | a :: s, b :: Z => (a = 1 ∨ a = b) ∧ Le s Z

theorem Le.refl : ∀ s, Le s s
  | [] => trivial
  | _ :: s => ⟨.inr rfl, Le.refl s⟩

theorem Le.trans : ∀ {s t u}, Le s t → Le t u → Le s u
  | [], _, _, _, _ => trivial
  | _ :: _, [], _, h, _ => h.elim
  | _ :: _, _ :: _, [], _, h => h.elim
  | a :: s, b :: t, c :: u, ⟨h1, h2⟩, ⟨h3, h4⟩ => by
    refine ⟨?_, Le.trans h2 h4⟩
    rcases h1 with h1 | h1
    · exact .inl h1
    · rw [h1]; exact h3

theorem Le.antisymm : ∀ {s t}, Le s t → Le t s → s = t
  | [], [], _, _ => rfl
  | [], _ :: _, _, h => h.elim
  | _ :: _, [], h, _ => h.elim
  | a :: s, b :: t, ⟨h1, h2⟩, ⟨h3, h4⟩ => by
    have := Le.antisymm h2 h4
    subst this
    congr 1
    rcases h1 with h1 | h1 <;> rcases h3 with h3 | h3 <;> omega

theorem Le.length : ∀ {s t}, Le s t → s.length ≤ t.length
  | [], _, _ => by simp
  | _ :: _, [], h => h.elim
  | _ :: s, _ :: t, ⟨_, h⟩ => by have := Le.length h; simpa using this

/-- Broadcasting gives an upper bound. -/
theorem bc_le : ∀ {s t Z}, bc s t = some Z → Le s Z ∧ Le t Z
  | [], t, Z, h => by
    simp only [bc, Option.some.injEq] at h; subst h; exact ⟨trivial, Le.refl _⟩
  | _ :: _, [], Z, h => by
    simp only [bc, Option.some.injEq] at h; subst h; exact ⟨Le.refl _, trivial⟩
  | a :: s, b :: t, Z, h => by
    simp only [bc] at h
    split_ifs at h with h1 h2 h3 <;> first
      | (simp only [Option.map_eq_some_iff] at h
         obtain ⟨W, hW, rfl⟩ := h
         obtain ⟨h5, h6⟩ := bc_le hW
         refine ⟨⟨?_, h5⟩, ⟨?_, h6⟩⟩ <;> omega)
      | simp at h

/-- It is the least one, and it exists if there is any. -/
theorem bc_of_le : ∀ {s t W}, Le s W → Le t W → ∃ Z, bc s t = some Z ∧ Le Z W
  | [], t, W, _, h => ⟨t, by simp [bc], h⟩
  | a :: s, [], W, h, _ => ⟨a :: s, by simp [bc], h⟩
  | _ :: _, _ :: _, [], h, _ => h.elim
  | a :: s, b :: t, c :: W, ⟨h1, h2⟩, ⟨h3, h4⟩ => by
    obtain ⟨Z, hZ, hl⟩ := bc_of_le h2 h4
    simp only [bc, hZ, Option.map_some]
    split_ifs with e1 e2 e3
    · exact ⟨_, rfl, h1, hl⟩
    · exact ⟨_, rfl, h3, hl⟩
    · exact ⟨_, rfl, h1, hl⟩
    · rcases h1 with h1 | h1 <;> rcases h3 with h3 | h3 <;> omega

/-- `bcAll` is the least upper bound. -/
theorem bcAll_le : ∀ {l : List Shape} {Z}, bcAll l = some Z → ∀ s ∈ l, Le s Z
  | [], _, _, s, hs => by simp at hs
  | a :: l, Z, h, s, hs => by
    simp only [bcAll, Option.bind_eq_some_iff] at h
    obtain ⟨W, hW, h⟩ := h
    obtain ⟨h1, h2⟩ := bc_le h
    rcases List.mem_cons.1 hs with rfl | hs
    · exact h1
    · exact (bcAll_le hW s hs).trans h2

theorem bcAll_of_le : ∀ {l : List Shape} {W}, (∀ s ∈ l, Le s W) → ∃ Z, bcAll l = some Z ∧ Le Z W
  | [], W, _ => ⟨[], rfl, trivial⟩
  | a :: l, W, h => by
    obtain ⟨Z, hZ, hl⟩ := bcAll_of_le (l := l) (W := W) fun s hs => h s (by simp [hs])
    obtain ⟨Y, hY, hm⟩ := bc_of_le (h a (by simp)) hl
    exact ⟨Y, by simp [bcAll, hZ, hY], hm⟩

/-- The result of broadcasting is characterised by the order. -/
theorem bcAll_eq_some {l : List Shape} {Z : Shape} :
    bcAll l = some Z ↔ (∀ s ∈ l, Le s Z) ∧ ∀ W, (∀ s ∈ l, Le s W) → Le Z W := by
  constructor
  · intro h
    refine ⟨bcAll_le h, fun W hW => ?_⟩
    obtain ⟨Y, hY, hl⟩ := bcAll_of_le hW
    rw [h] at hY
    obtain rfl := Option.some.inj hY
    exact hl
  · rintro ⟨h1, h2⟩
    obtain ⟨Y, hY, hl⟩ := bcAll_of_le h1
    rw [hY, Le.antisymm hl (h2 _ (bcAll_le hY))]

theorem bc_eq_some {s t Z : Shape} : bc s t = some Z ↔ (Le s Z ∧ Le t Z) ∧ ∀ W, Le s W → Le t W → Le Z W := by
  have h : bc s t = bcAll [s, t] := by cases s <;> cases t <;> simp [bcAll, bc]
  rw [h, bcAll_eq_some]; simp

/-! ### Indices -/

theorem proj_length : ∀ {s i}, s.length ≤ i.length → (proj s i).length = s.length
  | [], _, _ => rfl
  | _ :: _, [], h => by simp at h
  | _ :: s, _ :: i, h => by
    have := proj_length (s := s) (i := i) (by simpa using h)
    simp [proj, this]

/-- Expanding in two steps is expanding at once. -/
theorem proj_proj : ∀ {s Z i}, Le s Z → Z.length ≤ i.length → proj s (proj Z i) = proj s i
  | [], _, _, _, _ => by simp [proj]
  | _ :: _, [], _, h, _ => h.elim
  | _ :: _, _ :: _, [], _, h => by simp at h
  | a :: s, b :: Z, k :: i, ⟨h1, h2⟩, h => by
    have := proj_proj h2 (i := i) (by simpa using h)
    simp only [proj, this]
    congr 1
    rcases h1 with h1 | h1
    · simp [h1]
    · rw [h1]; split_ifs <;> rfl

/-- Nothing happens to an index of the shape itself. -/
theorem proj_valid : ∀ {s i}, Valid s i → proj s i = i
  | [], _, h => by cases h; rfl
  | d :: s, _, h => by
    cases h with
    | cons h1 h2 =>
      simp only [proj, proj_valid h2]
      congr 1
      split_ifs with hd
      · omega
      · rfl

/-- The index found is an index of the smaller shape. -/
theorem valid_proj : ∀ {s Z i}, Le s Z → Valid Z i → Valid s (proj s i)
  | [], _, _, _, _ => by simp [proj, Valid]
  | _ :: _, [], _, h, _ => h.elim
  | a :: s, b :: Z, _, ⟨h1, h2⟩, h => by
    cases h with
    | cons h3 h4 =>
      refine List.Forall₂.cons ?_ (valid_proj h2 h4)
      split_ifs with ha
      · omega
      · omega

theorem proj_append : ∀ {s t i j}, s.length = i.length → proj (s ++ t) (i ++ j) = proj s i ++ proj t j
  | [], _, [], _, _ => by simp [proj]
  | [], _, _ :: _, _, h => by simp at h
  | _ :: _, _, [], _, h => by simp at h
  | d :: s, t, k :: i, j, h => by
    simp only [List.cons_append, proj]
    rw [proj_append (by simpa using h)]

theorem proj_ones : ∀ {c i}, c = i.length → proj (List.replicate c 1) i = List.replicate c 0
  | 0, [], _ => rfl
  | 0, _ :: _, h => by simp at h
  | c + 1, [], h => by simp at h
  | c + 1, k :: i, h => by
    simp only [List.replicate_succ, proj, ↓reduceIte]
    rw [proj_ones (by simpa using h)]

/-! ### Broadcasting with a block of dimensions in front -/

/-- A block of the same dimensions on both sides stays. -/
theorem bc_append_same : ∀ (C s t : Shape), bc (C ++ s) (C ++ t) = (bc s t).map (C ++ ·)
  | [], s, t => by simp
  | a :: C, s, t => by
    simp only [List.cons_append, bc, ↓reduceIte, bc_append_same C s t, Option.map_map]
    rfl

/-- A block of ones gives way to the other block. -/
theorem bc_append_ones : ∀ (C s t : Shape), bc (C ++ s) (List.replicate C.length 1 ++ t) = (bc s t).map (C ++ ·)
  | [], s, t => by simp
  | a :: C, s, t => by
    simp only [List.length_cons, List.replicate_succ, List.cons_append, bc, bc_append_ones C s t, Option.map_map]
    split_ifs with h
    · rfl
    · rfl

theorem bc_comm (s t : Shape) : bc s t = bc t s := by
  rcases h : bc t s with _ | Z
  · rcases h' : bc s t with _ | Z
    · rfl
    · rw [bc_eq_some] at h'
      have : bc t s = some Z := bc_eq_some.2 ⟨h'.1.symm, fun W a b => h'.2 W b a⟩
      rw [h] at this; cases this
  · rw [bc_eq_some] at h
    exact bc_eq_some.2 ⟨h.1.symm, fun W a b => h.2 W b a⟩

theorem bc_ones_append (C s t : Shape) : bc (List.replicate C.length 1 ++ s) (C ++ t) = (bc s t).map (C ++ ·) := by
  rw [bc_comm, bc_append_ones, bc_comm]

theorem Le.append_ones : ∀ {C s t : Shape}, Le s t → Le (List.replicate C.length 1 ++ s) (C ++ t)
  | [], _, _, h => by simpa
  | _ :: C, _, _, h => ⟨.inl rfl, Le.append_ones (C := C) h⟩

theorem Le.append_same : ∀ {C s t : Shape}, Le s t → Le (C ++ s) (C ++ t)
  | [], _, _, h => by simpa
  | _ :: C, _, _, h => ⟨.inr rfl, Le.append_same (C := C) h⟩

end Verif.Tensor
