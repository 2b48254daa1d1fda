import Verif.Ragged.QuantModel

/-! # C161: ragged quantities -/

namespace Verif.Ragged.RQ

variable {D U F : Type} (W : World D U F)

/-- The tensor classes. -/
def TCls (c : Cls) : Prop := c = .tensor ∨ c = .tensorQuantity ∨ c = .raggedTensor ∨ c = .raggedQuantity

/-- `o` is an argument, by position or by name. -/
def Among (o : Obj D U) (as : List (Arg D U)) (ks : List (String × Arg D U)) : Prop := .obj o ∈ as ∨ ∃ name, (name, .obj o) ∈ ks

theorem mro_rq : mro .raggedQuantity = [.raggedQuantity, .tensorQuantity, .genericQuantity, .delegating, .generic, .raggedTensor, .«meta», .abc,
    .tensor, .tensorBase, .object] := by decide
theorem mro_tq : mro .tensorQuantity = [.tensorQuantity, .genericQuantity, .delegating, .generic, .«meta», .abc, .tensor, .tensorBase, .object] := by decide
theorem mro_rt : mro .raggedTensor = [.raggedTensor, .«meta», .abc, .tensor, .tensorBase, .object] := by decide

theorem find_rq : findTF (mro .raggedQuantity) = some (.tensorQuantity, .classMethod) := by decide
theorem find_tq : findTF (mro .tensorQuantity) = some (.tensorQuantity, .classMethod) := by decide
theorem find_rt : findTF (mro .raggedTensor) = some (.raggedTensor, .plain) := by decide
theorem find_after_rq : findTF (after .tensorQuantity (mro .raggedQuantity)) = some (.raggedTensor, .plain) := by decide
theorem find_after_tq : findTF (after .tensorQuantity (mro .tensorQuantity)) = some (.tensor, .classMethod) := by decide
theorem find_after_rt : findTF (after .raggedTensor (mro .raggedTensor)) = some (.tensor, .classMethod) := by decide
theorem issub_rq_tq : issub .raggedQuantity .tensorQuantity = true := by decide
theorem issub_tq_tq : issub .tensorQuantity .tensorQuantity = true := by decide
theorem issub_rt_rt : issub .raggedTensor .raggedTensor = true := by decide
theorem issub_tq_rq : issub .tensorQuantity .raggedQuantity = false := by decide
theorem issub_rt_rq : issub .raggedTensor .raggedQuantity = false := by decide
theorem issub_tq_rt : issub .tensorQuantity .raggedTensor = false := by decide
theorem issub_rt_tq : issub .raggedTensor .tensorQuantity = false := by decide

/-! ### the three implementations -/

theorem tf_tensor (n : Nat) (vs : List (Val D U F)) : tf W (n + 1) .tensor vs = tensorTF W vs := rfl

/-- The method of a ragged tensor, called through `super()` of a quantity's class method. -/
theorem tf_ragged_shifted (n : Nat) (f : F) (ts : List Cls) (as : List (Arg D U)) (ks : List (String × Arg D U)) :
    tf W (n + 1) .raggedTensor [.fn f, .types ts, .args as, .kwargs ks] = .error .typeError := rfl

theorem tf_ragged (n : Nat) (o : Obj D U) (h : o.cls = .raggedTensor) (f : F) (ts : List Cls) (as : List (Arg D U)) (ks : List (String × Arg D U)) :
    tf W (n + 2) .raggedTensor [.obj o, .fn f, .types ts, .args as, .kwargs ks] =
      (tensorTF W [.cls .raggedTensor, .fn f, .types ts, .args as, .kwargs ks]).map (ragUpdate o) := by
  have hb : superBind .raggedTensor (.obj o : Val D U F) [.fn f, .types ts, .args as, .kwargs ks] =
      .ok (.tensor, [.cls .raggedTensor, .fn f, .types ts, .args as, .kwargs ks]) := by
    simp only [superBind, h, issub_rt_rt, if_true, find_after_rt]
  show (do
    let (E, ws) ← superBind .raggedTensor (.obj o : Val D U F) [.fn f, .types ts, .args as, .kwargs ks]
    let ret ← tf W (n + 1) E ws
    return ragUpdate o ret) = _
  rw [hb]
  show (do
    let ret ← tensorTF W [.cls .raggedTensor, .fn f, .types ts, .args as, .kwargs ks]
    return ragUpdate o ret) = _
  cases tensorTF W [.cls .raggedTensor, .fn f, .types ts, .args as, .kwargs ks] <;> rfl

/-- What the spec makes of the arguments, for functions with and without. -/
def specOf (f : F) (as : List (Arg D U)) (ks : List (String × Arg D U)) :
    Except Err (List (Arg D U) × List (String × Arg D U) × (Obj D U → Obj D U)) :=
  match W.spec f with
  | none => .ok (as, ks, id)
  | some sp => sp as ks

theorem map_id' (r : Ret D U) : r.map id = r := by cases r <;> simp [Ret.map]

theorem tf_quantity (n : Nat) (f : F) (ts : List Cls) (as : List (Arg D U)) (ks : List (String × Arg D U)) :
    tf W (n + 2) .tensorQuantity [.cls .tensorQuantity, .fn f, .types ts, .args as, .kwargs ks] =
      if W.forbidden f then .ok .notImpl else do
        let (as', ks', post) ← specOf W f as ks
        let r ← tensorTF W [.cls .tensorQuantity, .fn f, .types ts, .args as', .kwargs ks']
        return r.map post := by
  have hb : ∀ as ks, superBind .tensorQuantity (.cls .tensorQuantity : Val D U F) [.fn f, .types ts, .args as, .kwargs ks] =
      .ok (.tensor, [.cls .tensorQuantity, .fn f, .types ts, .args as, .kwargs ks]) := fun as ks => by
    simp only [superBind, issub_tq_tq, if_true, find_after_tq]
  rw [tf]
  by_cases hf : W.forbidden f
  · simp only [hf, if_true]
  · simp only [hf, Bool.false_eq_true, if_false]
    unfold specOf
    cases hs : W.spec f with
    | none =>
      simp only [hb, bind, Except.bind, map_id', pure, Except.pure, tf_tensor]
      cases tensorTF W [.cls .tensorQuantity, .fn f, .types ts, .args as, .kwargs ks] <;> rfl
    | some sp =>
      simp only
      cases sp as ks with
      | error e => rfl
      | ok p => simp only [hb, bind, Except.bind]; rfl

theorem tf_ragged_quantity (n : Nat) (f : F) (ts : List Cls) (as : List (Arg D U)) (ks : List (String × Arg D U)) :
    tf W (n + 2) .tensorQuantity [.cls .raggedQuantity, .fn f, .types ts, .args as, .kwargs ks] =
      (if W.forbidden f then .ok .notImpl else do
        let _p ← specOf W f as ks
        (Except.error Err.typeError : Except Err (Ret D U))) := by
  have hb : ∀ as ks, superBind .tensorQuantity (.cls .raggedQuantity : Val D U F) [.fn f, .types ts, .args as, .kwargs ks] =
      .ok (.raggedTensor, [.fn f, .types ts, .args as, .kwargs ks]) := fun as ks => by
    simp only [superBind, issub_rq_tq, if_true, find_after_rq]
  rw [tf]
  by_cases hf : W.forbidden f
  · simp only [hf, if_true]
  · simp only [hf, Bool.false_eq_true, if_false]
    unfold specOf
    cases hs : W.spec f with
    | none => simp only [hb]; rfl
    | some sp =>
      simp only
      cases sp as ks with
      | error e => rfl
      | ok p => simp only [hb, bind, Except.bind]; rfl

theorem tensorTF_notImpl (c d : Cls) (h : issub c d = false) (f : F) (ts : List Cls) (hd : d ∈ ts) (as : List (Arg D U))
    (ks : List (String × Arg D U)) : tensorTF W [.cls c, .fn f, .types ts, .args as, .kwargs ks] = .ok .notImpl := by
  have : ts.all (issub c) = false := by
    rw [List.all_eq_false]
    exact ⟨d, hd, by simp [h]⟩
  simp [tensorTF, this]

/-! ### the arguments with an implementation -/

theorem mem_insertOv (o s : Obj D U) (l : List (Obj D U)) (h : s ∈ insertOv o l) : s ∈ l ∨ (s = o ∧ o.cls ≠ .tensor) := by
  unfold insertOv at h
  split_ifs at h with hc
  · exact .inl h
  · push Not at hc
    rw [List.mem_append, List.mem_cons] at h
    rcases h with h | h | h
    · exact .inl (List.takeWhile_subset _ h)
    · exact .inr ⟨h, hc.1⟩
    · exact .inl (List.dropWhile_subset _ h)

theorem insertOv_mem (o s : Obj D U) (l : List (Obj D U)) (h : s ∈ l) : s ∈ insertOv o l := by
  unfold insertOv
  split_ifs
  · exact h
  · rw [← List.takeWhile_append_dropWhile (p := fun s => !issub o.cls s.cls) (l := l), List.mem_append] at h
    rw [List.mem_append, List.mem_cons]
    tauto

theorem insertOv_new (o : Obj D U) (l : List (Obj D U)) (h : o.cls ≠ .tensor) : ∃ s ∈ insertOv o l, s.cls = o.cls := by
  unfold insertOv
  split_ifs with hc
  · rcases hc with hc | hc
    · exact absurd hc h
    · obtain ⟨s, hs, e⟩ := List.any_eq_true.mp hc
      exact ⟨s, hs, by simpa using e⟩
  · exact ⟨o, by simp, rfl⟩

theorem foldl_ov (os : List (Obj D U)) : ∀ l : List (Obj D U),
    (∀ s ∈ os.foldl (fun l o => insertOv o l) l, s ∈ l ∨ (s ∈ os ∧ s.cls ≠ .tensor)) ∧
    (∀ s ∈ l, s ∈ os.foldl (fun l o => insertOv o l) l) ∧
    (∀ o ∈ os, o.cls ≠ .tensor → ∃ s ∈ os.foldl (fun l o => insertOv o l) l, s.cls = o.cls) := by
  induction os with
  | nil => intro l; simp
  | cons a os ih =>
    intro l
    obtain ⟨h1, h2, h3⟩ := ih (insertOv a l)
    refine ⟨fun s hs => ?_, fun s hs => h2 s (insertOv_mem _ _ _ hs), fun o ho hc => ?_⟩
    · rcases h1 s hs with h | h
      · rcases mem_insertOv _ _ _ h with h | ⟨rfl, h⟩
        · exact .inl h
        · exact .inr ⟨by simp, h⟩
      · exact .inr ⟨by simp [h.1], h.2⟩
    · rcases List.mem_cons.mp ho with rfl | ho
      · obtain ⟨s, hs, e⟩ := insertOv_new o l hc
        exact ⟨s, h2 s hs, e⟩
      · exact h3 o ho hc

/-! ### calls that cannot succeed -/

/-- No single class among the arguments' classes is below all others, or the lowest one is `RaggedQuantity`. -/
def Bad (ts : List Cls) : Prop := .raggedQuantity ∈ ts ∨ (.tensorQuantity ∈ ts ∧ .raggedTensor ∈ ts)

theorem invoke_bad (o : Obj D U) (ho : TCls o.cls) (ht : o.cls ≠ .tensor) (f : F) (ts : List Cls) (hb : Bad ts) (as : List (Arg D U))
    (ks : List (String × Arg D U)) :
    invoke W o [.fn f, .types ts, .args as, .kwargs ks] = .ok .notImpl ∨
    invoke W o [.fn f, .types ts, .args as, .kwargs ks] = .error .typeError ∨
    (∃ e, specOf W f as ks = .error e ∧ invoke W o [.fn f, .types ts, .args as, .kwargs ks] = .error e) := by
  rcases ho with h | h | h | h
  · exact absurd h ht
  · have e : invoke W o [.fn f, .types ts, .args as, .kwargs ks] =
        tf W 100 .tensorQuantity [.cls .tensorQuantity, .fn f, .types ts, .args as, .kwargs ks] := by
      simp only [invoke, h, find_tq]
    rw [e, tf_quantity W 98]
    by_cases hf : W.forbidden f
    · simp [hf]
    · simp only [hf, Bool.false_eq_true, if_false]
      cases hs : specOf W f as ks with
      | error e => exact .inr (.inr ⟨e, rfl, rfl⟩)
      | ok p =>
        left
        have : ∀ as ks, tensorTF W [.cls .tensorQuantity, .fn f, .types ts, .args as, .kwargs ks] = .ok .notImpl := fun as ks => by
          rcases hb with hb | hb
          · exact tensorTF_notImpl W _ _ issub_tq_rq f ts hb as ks
          · exact tensorTF_notImpl W _ _ issub_tq_rt f ts hb.2 as ks
        simp only [bind, Except.bind, this]; rfl
  · have e : invoke W o [.fn f, .types ts, .args as, .kwargs ks] =
        tf W 100 .raggedTensor [.obj o, .fn f, .types ts, .args as, .kwargs ks] := by
      simp only [invoke, h, find_rt]
    rw [e, tf_ragged W 98 o h]
    left
    have : tensorTF W [.cls .raggedTensor, .fn f, .types ts, .args as, .kwargs ks] = .ok .notImpl := by
      rcases hb with hb | hb
      · exact tensorTF_notImpl W _ _ issub_rt_rq f ts hb as ks
      · exact tensorTF_notImpl W _ _ issub_rt_tq f ts hb.1 as ks
    rw [this]; rfl
  · have e : invoke W o [.fn f, .types ts, .args as, .kwargs ks] =
        tf W 100 .tensorQuantity [.cls .raggedQuantity, .fn f, .types ts, .args as, .kwargs ks] := by
      simp only [invoke, h, find_rq]
    rw [e, tf_ragged_quantity W 98]
    by_cases hf : W.forbidden f
    · simp [hf]
    · simp only [hf, Bool.false_eq_true, if_false]
      cases hs : specOf W f as ks with
      | error e => exact .inr (.inr ⟨e, rfl, rfl⟩)
      | ok p => exact .inr (.inl rfl)

theorem tryAll_bad (f : F) (ts : List Cls) (hb : Bad ts) (as : List (Arg D U)) (ks : List (String × Arg D U)) :
    ∀ l : List (Obj D U), (∀ o ∈ l, TCls o.cls ∧ o.cls ≠ .tensor) →
      tryAll W [.fn f, .types ts, .args as, .kwargs ks] l = .error .typeError ∨
      ∃ e, specOf W f as ks = .error e ∧ tryAll W [.fn f, .types ts, .args as, .kwargs ks] l = .error e
  | [], _ => .inl rfl
  | o :: l, h => by
    have ho := h o (by simp)
    rw [tryAll]
    rcases invoke_bad W o ho.1 ho.2 f ts hb as ks with e | e | ⟨x, hx, e⟩
    · rw [e]; exact tryAll_bad f ts hb as ks l (fun o ho => h o (by simp [ho]))
    · rw [e]; exact .inl rfl
    · rw [e]; exact .inr ⟨x, hx, rfl⟩

theorem call_bad (f : F) (as : List (Arg D U)) (ks : List (String × Arg D U)) (hT : ∀ o ∈ objs as ks, TCls o.cls)
    (hb : Bad ((objs as ks).map Obj.cls)) :
    torchCall W f as ks = .error .typeError ∨ ∃ e, specOf W f as ks = .error e ∧ torchCall W f as ks = .error e := by
  obtain ⟨h1, -, h3⟩ := foldl_ov (objs as ks) []
  change ∀ s ∈ overloaded as ks, _ at h1
  change ∀ o ∈ objs as ks, _ → ∃ s ∈ overloaded as ks, _ at h3
  have hcls : ∀ c, c ≠ Cls.tensor → c ∈ (objs as ks).map Obj.cls → c ∈ (overloaded as ks).map Obj.cls := fun c hc h => by
    obtain ⟨o, ho, rfl⟩ := List.mem_map.mp h
    obtain ⟨s, hs, e⟩ := h3 o ho hc
    exact List.mem_map.mpr ⟨s, hs, e⟩
  have hb' : Bad ((overloaded as ks).map Obj.cls) := by
    rcases hb with h | h
    · exact .inl (hcls _ (by decide) h)
    · exact .inr ⟨hcls _ (by decide) h.1, hcls _ (by decide) h.2⟩
  have hl : ∀ o ∈ overloaded as ks, TCls o.cls ∧ o.cls ≠ .tensor := fun o ho => by
    rcases h1 o ho with h | h
    · cases h
    · exact ⟨hT o h.1, h.2⟩
  unfold torchCall
  split
  · rename_i hnil
    rw [hnil] at hb'
    simp [Bad] at hb'
  · exact tryAll_bad W f _ hb' as ks _ hl

theorem mem_objs (o : Obj D U) (as : List (Arg D U)) (ks : List (String × Arg D U)) : o ∈ objs as ks ↔ Among o as ks := by
  unfold objs Among
  rw [List.mem_filterMap]
  constructor
  · rintro ⟨a, ha, e⟩
    cases a with
    | other n => cases e
    | obj x =>
      cases e
      rcases List.mem_append.mp ha with h | h
      · exact .inl h
      · obtain ⟨⟨n, y⟩, hp, rfl⟩ := List.mem_map.mp h
        exact .inr ⟨n, hp⟩
  · rintro (h | ⟨n, h⟩)
    · exact ⟨.obj o, List.mem_append.mpr (.inl h), rfl⟩
    · exact ⟨.obj o, List.mem_append.mpr (.inr (List.mem_map.mpr ⟨_, h, rfl⟩)), rfl⟩

/-- **C161** every call of a torch function (of a method, operator or attribute) with a ragged quantity among its arguments raises: whatever the kernel,
no result is returned. -/
theorem C161_raises (f : F) (as : List (Arg D U)) (ks : List (String × Arg D U)) (hT : ∀ o, Among o as ks → TCls o.cls)
    (h : ∃ o, Among o as ks ∧ o.cls = .raggedQuantity) (r : Ret D U) : torchCall W f as ks ≠ .ok r := by
  obtain ⟨o, ho, hc⟩ := h
  rcases call_bad W f as ks (fun o h => hT o ((mem_objs _ _ _).mp h)) (.inl (List.mem_map.mpr ⟨o, (mem_objs _ _ _).mpr ho, hc⟩)) with e | ⟨x, -, e⟩ <;> rw [e] <;> exact fun h => nomatch h

/-- **C161** the exception is a `TypeError`, unless the units are wrong for the function. -/
theorem C161_type_error (f : F) (as : List (Arg D U)) (ks : List (String × Arg D U)) (hT : ∀ o, Among o as ks → TCls o.cls)
    (h : ∃ o, Among o as ks ∧ o.cls = .raggedQuantity) (hs : ∀ sp, W.spec f = some sp → ∃ p, sp as ks = .ok p) :
    torchCall W f as ks = .error .typeError := by
  obtain ⟨o, ho, hc⟩ := h
  rcases call_bad W f as ks (fun o h => hT o ((mem_objs _ _ _).mp h)) (.inl (List.mem_map.mpr ⟨o, (mem_objs _ _ _).mpr ho, hc⟩)) with e | ⟨x, hx, -⟩
  · exact e
  · unfold specOf at hx
    cases h : W.spec f with
    | none => rw [h] at hx; cases hx
    | some sp =>
      rw [h] at hx
      obtain ⟨p, hp⟩ := hs sp h
      simp only [hp] at hx
      cases hx

/-- **C161** a quantity and a ragged tensor cannot be used together either. -/
theorem C161_mixed (f : F) (as : List (Arg D U)) (ks : List (String × Arg D U)) (hT : ∀ o, Among o as ks → TCls o.cls)
    (hq : ∃ o, Among o as ks ∧ o.cls = .tensorQuantity) (hr : ∃ o, Among o as ks ∧ o.cls = .raggedTensor) (r : Ret D U) : torchCall W f as ks ≠ .ok r := by
  obtain ⟨o, ho, hc⟩ := hq
  obtain ⟨o', ho', hc'⟩ := hr
  rcases call_bad W f as ks (fun o h => hT o ((mem_objs _ _ _).mp h))
    (.inr ⟨List.mem_map.mpr ⟨o, (mem_objs _ _ _).mpr ho, hc⟩, List.mem_map.mpr ⟨o', (mem_objs _ _ _).mpr ho', hc'⟩⟩) with e | ⟨x, -, e⟩ <;> rw [e] <;>
    exact fun h => nomatch h

/-! ### calls with objects of one class -/

theorem overloaded_one (as : List (Arg D U)) (ks : List (String × Arg D U)) (pre post : List (Obj D U)) (o : Obj D U)
    (h : objs as ks = pre ++ o :: post) (hp : ∀ s ∈ pre, s.cls = .tensor) (ho : o.cls ≠ .tensor)
    (hq : ∀ s ∈ post, s.cls = .tensor ∨ s.cls = o.cls) : overloaded as ks = [o] := by
  have h1 : ∀ l : List (Obj D U), (∀ s ∈ l, s.cls = .tensor) → l.foldl (fun l o => insertOv o l) [] = [] := fun l => by
    induction l with
    | nil => intro _; rfl
    | cons a l ih =>
      intro hl
      rw [List.foldl_cons, insertOv, if_pos (.inl (hl a (by simp)))]
      exact ih fun s hs => hl s (by simp [hs])
  have h2 : ∀ l : List (Obj D U), (∀ s ∈ l, s.cls = .tensor ∨ s.cls = o.cls) → l.foldl (fun l o => insertOv o l) [o] = [o] := fun l => by
    induction l with
    | nil => intro _; rfl
    | cons a l ih =>
      intro hl
      rw [List.foldl_cons, insertOv, if_pos]
      · exact ih fun s hs => hl s (by simp [hs])
      · rcases hl a (by simp) with h | h
        · exact .inl h
        · exact .inr (by simp [h])
  rw [overloaded, h, List.foldl_append, List.foldl_cons, h1 pre hp]
  have : insertOv o [] = [o] := by simp [insertOv, ho]
  rw [this]
  exact h2 post hq

theorem overloaded_split (pre post : List (Arg D U)) (ks : List (String × Arg D U)) (o : Obj D U) (hp : ∀ s, .obj s ∈ pre → s.cls = .tensor)
    (ho : o.cls ≠ .tensor) (hq : ∀ s, Among s (pre ++ .obj o :: post) ks → s.cls = .tensor ∨ s.cls = o.cls) :
    overloaded (pre ++ .obj o :: post) ks = [o] := by
  have e : ∀ as : List (Arg D U), objs (pre ++ .obj o :: as) ks = objs pre [] ++ o :: objs as ks := fun as => by
    simp [objs, List.filterMap_append, List.filterMap_cons]
  refine overloaded_one _ ks _ _ o (e post) (fun s hs => ?_) ho (fun s hs => hq s ?_)
  · rcases (mem_objs _ _ _).mp hs with h | ⟨n, h⟩
    · exact hp s h
    · cases h
  · rw [← mem_objs, e]
    simp [hs]

/-- **C161** with ragged tensors (and plain tensors) only: a single tensor gets the sizes of the leftmost ragged one. -/
theorem C161_ragged_only (f : F) (as : List (Arg D U)) (ks : List (String × Arg D U)) (pre post : List (Arg D U)) (o : Obj D U)
    (h : as = pre ++ .obj o :: post) (hp : ∀ s, .obj s ∈ pre → s.cls = .tensor) (ho : o.cls = .raggedTensor)
    (hq : ∀ s, Among s as ks → s.cls = .tensor ∨ s.cls = .raggedTensor) (d : D) (hk : W.kernel f as ks = .ok (.one d)) :
    torchCall W f as ks = .ok (.one ⟨.raggedTensor, d, none, o.sizes⟩) := by
  have hl : overloaded as ks = [o] := by
    subst h; exact overloaded_split pre post ks o hp (by rw [ho]; decide) (by rw [ho]; exact hq)
  have e : invoke W o [.fn f, .types [.raggedTensor], .args as, .kwargs ks] =
      tf W 100 .raggedTensor [.obj o, .fn f, .types [.raggedTensor], .args as, .kwargs ks] := by
    simp only [invoke, ho, find_rt]
  have hT : tensorTF W [.cls .raggedTensor, .fn f, .types [.raggedTensor], .args as, .kwargs ks] = .ok (.one (fresh .raggedTensor d)) := by
    simp only [tensorTF, List.all_cons, List.all_nil, issub_rt_rt, Bool.and_self, if_true, hk]
    rfl
  simp only [torchCall, hl, tryAll, List.map_cons, List.map_nil, ho, e, tf_ragged W 98 o ho, hT]
  simp only [Except.map, ragUpdate, fresh, ho, issub_rt_rt, if_true, bind, Except.bind, Option.or_none]
  rfl

/-- **C161** with quantities (and plain tensors) only: a single tensor becomes a quantity and gets what the dimension spec says. -/
theorem C161_quantity_only (f : F) (as : List (Arg D U)) (ks : List (String × Arg D U)) (pre post : List (Arg D U)) (o : Obj D U)
    (h : as = pre ++ .obj o :: post) (hp : ∀ s, .obj s ∈ pre → s.cls = .tensor) (ho : o.cls = .tensorQuantity)
    (hq : ∀ s, Among s as ks → s.cls = .tensor ∨ s.cls = .tensorQuantity) (hf : W.forbidden f = false)
    (sp : List (Arg D U) → List (String × Arg D U) → Except Err (List (Arg D U) × List (String × Arg D U) × (Obj D U → Obj D U)))
    (hs : W.spec f = some sp) (as' : List (Arg D U)) (ks' : List (String × Arg D U)) (g : Obj D U → Obj D U)
    (hsp : sp as ks = .ok (as', ks', g)) (d : D) (hk : W.kernel f as' ks' = .ok (.one d)) :
    torchCall W f as ks = .ok (.one (g ⟨.tensorQuantity, d, none, none⟩)) := by
  have hl : overloaded as ks = [o] := by
    subst h; exact overloaded_split pre post ks o hp (by rw [ho]; decide) (by rw [ho]; exact hq)
  have e : invoke W o [.fn f, .types [.tensorQuantity], .args as, .kwargs ks] =
      tf W 100 .tensorQuantity [.cls .tensorQuantity, .fn f, .types [.tensorQuantity], .args as, .kwargs ks] := by
    simp only [invoke, ho, find_tq]
  have hT : tensorTF W [.cls .tensorQuantity, .fn f, .types [.tensorQuantity], .args as', .kwargs ks'] =
      .ok (.one (fresh .tensorQuantity d)) := by
    simp only [tensorTF, List.all_cons, List.all_nil, issub_tq_tq, Bool.and_self, if_true, hk]
    rfl
  have hso : specOf W f as ks = .ok (as', ks', g) := by simp only [specOf, hs, hsp]
  simp only [torchCall, hl, tryAll, List.map_cons, List.map_nil, ho, e, tf_quantity W 98, hf, Bool.false_eq_true, if_false, hso]
  simp only [bind, Except.bind, hT, pure, Except.pure, Ret.map, fresh]

/-! ### what a ragged quantity can do -/

/-- **C161** the constructor keeps the sizes, and the unit given or else that of a quantity it is made from; `value` gives the numbers. -/
theorem C161_construct_partial (x : Obj D U) (sizes : List Int) :
    (∀ unit : Option U, (new x sizes unit).cls = .raggedQuantity ∧ (new x sizes unit).sizes = some sizes ∧
      value (new x sizes unit) = ⟨.tensor, x.data, none, none⟩) ∧
    (∀ u : U, (new x sizes (some u)).unit = some u) ∧
    (x.cls = .tensorQuantity ∨ x.cls = .raggedQuantity → (new x sizes none).unit = x.unit) ∧
    (x.cls = .tensor ∨ x.cls = .raggedTensor → (new x sizes none).unit = none) := by
  refine ⟨fun u => ⟨rfl, rfl, rfl⟩, fun u => by simp [new], fun h => ?_, fun h => ?_⟩
  · rcases h with h | h <;> simp [new, h, issub_tq_tq, issub_rq_tq]
  · have ht : issub .tensor .tensorQuantity = false := by decide
    rcases h with h | h <;> simp [new, h, ht, issub_rt_tq]

/-- **C161** conversion to the unit the quantity has returns the quantity; every other one raises. -/
theorem C161_to [DecidableEq U] (clone asSubclass : F) (k : Ret D U → Except Err (Ret D U)) (q : Obj D U) (hq : q.cls = .raggedQuantity)
    (unit : Option U) : (q.unit = unit → convert W clone asSubclass k q unit = .ok (.one q)) ∧
      (q.unit ≠ unit → ∀ r, convert W clone asSubclass k q unit ≠ .ok r) := by
  refine ⟨fun h => by rw [convert, if_pos h], fun h r => ?_⟩
  have hc : ∀ f, ∃ e, torchCall W f [.obj q] [] = .error e := fun f => by
    have := C161_raises W f [.obj q] [] (by simp [Among, hq, TCls]) ⟨q, by simp [Among], hq⟩
    cases e : torchCall W f [.obj q] [] with
    | error x => exact ⟨x, rfl⟩
    | ok x => exact absurd e (this x)
  obtain ⟨e1, h1⟩ := hc clone
  obtain ⟨e2, h2⟩ := hc asSubclass
  unfold convert
  rw [if_neg h, h1, h2]
  split_ifs <;> exact fun h => nomatch h

/-- **C161** `torch.where` of a ragged quantity raises, whichever of the three arguments it is. -/
theorem C161_where (w : F) (c x y : Arg D U) (rest : List (Arg D U)) (hT : ∀ o, Arg.obj o = c ∨ Arg.obj o = x ∨ Arg.obj o = y → TCls o.cls)
    (q : Obj D U) (hq : q.cls = .raggedQuantity) (h : Arg.obj q = c ∨ Arg.obj q = x ∨ Arg.obj q = y) (r : Ret D U) :
    whereTQ W w (c :: x :: y :: rest) ≠ .ok r := by
  refine C161_raises W w [x, c, y] [] (fun o ho => hT o ?_) ⟨q, .inl ?_, hq⟩ r
  · rcases ho with h | ⟨n, h⟩
    · simp only [List.mem_cons, List.not_mem_nil, or_false] at h; tauto
    · cases h
  · simp only [List.mem_cons, List.not_mem_nil, or_false]; tauto

/-- **C161** `torch.gradient` of a ragged quantity raises. -/
theorem C161_gradient (ndim : F) (k : Ret D U → Except Err (Ret D U)) (q : Obj D U) (hq : q.cls = .raggedQuantity) (rest : List (Arg D U))
    (r : Ret D U) : gradientTQ W ndim k (.obj q :: rest) ≠ .ok r := by
  have := C161_raises W ndim [.obj q] [] (by simp [Among, hq, TCls]) ⟨q, by simp [Among], hq⟩
  unfold gradientTQ
  cases e : torchCall W ndim [.obj q] [] with
  | error x => simp only [e]; exact fun h => nomatch h
  | ok x => exact absurd e (this x)

/-- **C161** `reduce_add` raises. -/
theorem C161_reduce_add (shape : F) (k : Ret D U → Except Err (Ret D U)) (q : Obj D U) (hq : q.cls = .raggedQuantity) (r : Ret D U) :
    reduceAdd W shape k q ≠ .ok r := by
  have := C161_raises W shape [.obj q] [] (by simp [Among, hq, TCls]) ⟨q, by simp [Among], hq⟩
  unfold reduceAdd
  cases e : torchCall W shape [.obj q] [] with
  | error x => exact fun h => nomatch h
  | ok x => exact absurd e (this x)

/-! ### A case -/

/-- Numbers, units as strings, one function: the sum of all tensors; units are those of the first tensor. -/
def exW : World Int String Unit where
  kernel _ as _ := .ok (.one ((objs as []).map Obj.data).sum)
  forbidden _ := false
  spec _ := some fun as ks => .ok (as, ks, fun o => { o with unit := (objs as []).head?.bind Obj.unit })

/-- A quantity, a ragged tensor, and the ragged quantity made from the first. -/
def exQ : Obj Int String := ⟨.tensorQuantity, 3, some "m", none⟩
def exR : Obj Int String := ⟨.raggedTensor, 4, none, some [1, 2]⟩
def exRQ : Obj Int String := new exQ [1, 2] none

example : exRQ.unit = some "m" ∧ exRQ.sizes = some [1, 2] ∧ exRQ.data = 3 := by
  refine ⟨(C161_construct_partial exQ [1, 2]).2.2.1 (.inl rfl), rfl, rfl⟩

example : torchCall exW () [.obj exRQ, .obj exRQ] [] = .error .typeError :=
  C161_type_error exW () _ _ (by simp [Among, exRQ, new, TCls]) ⟨exRQ, by simp [Among], rfl⟩ (by rintro sp ⟨⟩; exact ⟨_, rfl⟩)

example (r) : torchCall exW () [.obj exQ, .obj exR] [] ≠ .ok r :=
  C161_mixed exW () _ _ (by rintro o (h | ⟨n, h⟩) <;> simp at h; rcases h with rfl | rfl <;> simp [exQ, exR, TCls]) ⟨exQ, by simp [Among], rfl⟩ ⟨exR, by simp [Among], rfl⟩ r

example : torchCall exW () [.obj exQ, .obj exQ] [] = .ok (.one ⟨.tensorQuantity, 6, some "m", none⟩) :=
  C161_quantity_only exW () _ _ [] [.obj exQ] exQ rfl (by simp) rfl (by simp [Among, exQ]) rfl _ rfl _ _ _ rfl 6 rfl

example : torchCall exW () [.obj ⟨.tensor, 1, none, none⟩, .obj exR] [] = .ok (.one ⟨.raggedTensor, 5, none, some [1, 2]⟩) :=
  C161_ragged_only exW () _ _ [.obj ⟨.tensor, 1, none, none⟩] [] exR rfl (by simp) rfl
    (by rintro o (h | ⟨n, h⟩) <;> simp at h; rcases h with rfl | rfl <;> simp [exR]) 5 rfl

example (r) : whereTQ exW () [.other 1, .obj exRQ, .obj exQ] ≠ .ok r :=
  C161_where exW () _ _ _ [] (by rintro o (h | h | h) <;> cases h <;> simp [exRQ, new, exQ, TCls]) exRQ rfl (.inr (.inl rfl)) r

/-- By name. -/
example (r) : torchCall exW () [.other 1] [("other", .obj exRQ)] ≠ .ok r :=
  C161_raises exW () _ _ (by simp [Among, exRQ, new, TCls]) ⟨exRQ, by simp [Among], rfl⟩ r

end Verif.Ragged.RQ
