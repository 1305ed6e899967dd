/-
Histories of events.
-/
namespace PyNDN

/-- Every event has a justification in the events before it. -/
def Justified {ε : Type} (J : List ε → ε → Prop) (t : List ε) : Prop := ∀ pre e post, t = pre ++ e :: post → J pre e

theorem justified_append {ε : Type} {J : List ε → ε → Prop} {t evs : List ε} (h : Justified J t) (h' : ∀ pre e post, evs = pre ++ e :: post → J (t ++ pre) e) :
    Justified J (t ++ evs) := by
  intro pre e post he
  rcases List.append_eq_append_iff.mp he with ⟨a, h1, h2⟩ | ⟨a, h1, h2⟩
  · rw [h1]; exact h' a e post h2
  · cases a with
    | nil =>
      rw [List.append_nil] at h1
      rw [← h1]
      have := h' [] e post h2.symm
      rwa [List.append_nil] at this
    | cons x a =>
      rw [List.cons_append] at h2
      cases h2
      exact h pre e a h1

theorem justified_nil {ε : Type} {J : List ε → ε → Prop} : Justified J [] := fun pre e post h => by cases pre <;> cases h

theorem justified_one {ε : Type} {J : List ε → ε → Prop} {t : List ε} {e : ε} (h : Justified J t) (h' : J t e) : Justified J (t ++ [e]) := by
  refine justified_append h (fun pre e' post he => ?_)
  cases pre with
  | nil => cases he; rw [List.append_nil]; exact h'
  | cons x pre => cases pre <;> cases he

end PyNDN
