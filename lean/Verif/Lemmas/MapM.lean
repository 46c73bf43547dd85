import Verif.Model.Py
import Mathlib.Data.List.Forall2

/-!
# `List.mapM` in `Except`
-/

namespace CatLearn.MapM

variable {α β ε : Type}

theorem mapM_nil (f : α → Except ε β) : ([] : List α).mapM f = .ok [] := rfl

theorem mapM_cons (f : α → Except ε β) (a : α) (l : List α) :
    (a :: l).mapM f = match f a with
      | .error e => .error e
      | .ok b => match l.mapM f with
        | .error e => .error e
        | .ok bs => .ok (b :: bs) := by
  rw [List.mapM_cons]
  simp only [bind, Except.bind, pure, Except.pure]
  cases f a with
  | error e => rfl
  | ok b =>
    simp only
    cases l.mapM f <;> rfl

theorem mapM_ok_map (f : α → Except ε β) (g : α → β) (l : List α) (h : ∀ a ∈ l, f a = .ok (g a)) :
    l.mapM f = .ok (l.map g) := by
  induction l with
  | nil => rfl
  | cons a l ih =>
    rw [mapM_cons, h a (by simp), ih fun b hb => h b (by simp [hb])]; rfl

theorem mapM_error_of_mem (f : α → Except ε β) (l : List α) (h : ∃ a ∈ l, ∃ e, f a = .error e) :
    ∃ e, l.mapM f = .error e := by
  induction l with
  | nil => obtain ⟨a, ha, _⟩ := h; simp at ha
  | cons a l ih =>
    rw [mapM_cons]
    cases hf : f a with
    | error e => exact ⟨e, rfl⟩
    | ok b =>
      obtain ⟨c, hc, e, he⟩ := h
      rcases List.mem_cons.mp hc with rfl | hc
      · rw [hf] at he; simp at he
      · obtain ⟨e', h'⟩ := ih ⟨c, hc, e, he⟩
        simp only [h']; exact ⟨e', rfl⟩

theorem mapM_error_exists (f : α → Except ε β) (l : List α) (e : ε) (h : l.mapM f = .error e) :
    ∃ a ∈ l, f a = .error e := by
  induction l with
  | nil => rw [mapM_nil] at h; cases h
  | cons a l ih =>
    rw [mapM_cons] at h
    cases hf : f a with
    | error e' => simp only [hf, Except.error.injEq] at h; subst h; exact ⟨a, by simp, hf⟩
    | ok b =>
      simp only [hf] at h
      cases hl : l.mapM f with
      | error e' =>
        simp only [hl, Except.error.injEq] at h
        subst h
        obtain ⟨c, hc, h'⟩ := ih hl
        exact ⟨c, by simp [hc], h'⟩
      | ok bs => simp [hl] at h

theorem mapM_ok_forall₂ (f : α → Except ε β) : ∀ (l : List α) (r : List β), l.mapM f = .ok r →
    List.Forall₂ (fun a b => f a = .ok b) l r := by
  intro l
  induction l with
  | nil => intro r h; rw [mapM_nil] at h; cases h; exact .nil
  | cons a l ih =>
    intro r h
    rw [mapM_cons] at h
    cases hf : f a with
    | error e => simp [hf] at h
    | ok b =>
      simp only [hf] at h
      cases hl : l.mapM f with
      | error e => simp [hl] at h
      | ok bs => simp only [hl, Except.ok.injEq] at h; subst h; exact .cons hf (ih bs hl)

end CatLearn.MapM
