/-! # Two lists related element by element (vocabulary only) -/
namespace Verif

/-- Same length, and corresponding elements are related. -/
inductive All2 {α β : Type} (R : α → β → Prop) : List α → List β → Prop
  | nil : All2 R [] []
  | cons {a b l m} : R a b → All2 R l m → All2 R (a :: l) (b :: m)

theorem All2.map_left {α α' β : Type} {R : α → β → Prop} {S : α' → β → Prop} {f : α → α'} {l : List α} {m : List β}
    (h : All2 R l m) (hf : ∀ a b, a ∈ l → R a b → S (f a) b) : All2 S (l.map f) m := by
  induction h with
  | nil => exact .nil
  | cons h1 _ ih => exact .cons (hf _ _ (by simp) h1) (ih fun a b ha => hf a b (by simp [ha]))

theorem All2.trans_map {α β : Type} {R : α → β → Prop} {T : β → β → Prop} {f : α → α} {l : List α} {m n : List β}
    (h : All2 R l m) (ht : All2 T m n) (hf : ∀ a b c, a ∈ l → b ∈ m → R a b → T b c → R (f a) c) :
    All2 R (l.map f) n := by
  induction h generalizing n with
  | nil => cases ht; exact .nil
  | cons h1 _ ih =>
    cases ht with
    | cons h2 h3 =>
      exact .cons (hf _ _ _ (by simp) (by simp) h1 h2) (ih h3 fun a b c ha hb => hf a b c (by simp [ha]) (by simp [hb]))

theorem All2.mem_left {α β : Type} {R : α → β → Prop} {l : List α} {m : List β} (h : All2 R l m) {a : α} (ha : a ∈ l) :
    ∃ b ∈ m, R a b := by
  induction h with
  | nil => simp at ha
  | cons h1 _ ih =>
    rcases List.mem_cons.1 ha with rfl | ha
    · exact ⟨_, by simp, h1⟩
    · obtain ⟨b, hb, h⟩ := ih ha; exact ⟨b, by simp [hb], h⟩

theorem All2.mem_right {α β : Type} {R : α → β → Prop} {l : List α} {m : List β} (h : All2 R l m) {b : β} (hb : b ∈ m) :
    ∃ a ∈ l, R a b := by
  induction h with
  | nil => simp at hb
  | cons h1 _ ih =>
    rcases List.mem_cons.1 hb with rfl | hb
    · exact ⟨_, by simp, h1⟩
    · obtain ⟨a, ha, h⟩ := ih hb; exact ⟨a, by simp [ha], h⟩

theorem All2.map_right {α β : Type} {R : α → β → Prop} {f : α → β} (l : List α) (hf : ∀ a ∈ l, R a (f a)) :
    All2 R l (l.map f) := by
  induction l with
  | nil => exact .nil
  | cons a l ih => exact .cons (hf a (by simp)) (ih fun b hb => hf b (by simp [hb]))

theorem All2.modify_left {α β : Type} {R : α → β → Prop} {g : α → α} {l : List α} {m : List β} (h : All2 R l m)
    (hg : ∀ a b, R a b → R (g a) b) (i : Nat) : All2 R (l.modify i g) m := by
  induction h generalizing i with
  | nil => cases i <;> exact .nil
  | cons h1 h2 ih =>
    cases i with
    | zero => exact .cons (hg _ _ h1) h2
    | succ i => exact .cons h1 (ih i)

end Verif
