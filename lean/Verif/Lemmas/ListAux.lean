import Mathlib.Data.List.Basic

/-! General list lemmas. -/

namespace Pygcode

theorem first_split {α} [DecidableEq α] {c : α} {t : List α} (h : c ∈ t) :
    ∃ a b, t = a ++ c :: b ∧ c ∉ a := by
  induction t with
  | nil => simp at h
  | cons x t ih =>
    by_cases hx : x = c
    · subst hx; exact ⟨[], t, rfl, by simp⟩
    · obtain ⟨a, b, he, ha⟩ := ih (by
        rcases List.mem_cons.1 h with h | h
        · exact absurd h.symm hx
        · exact h)
      refine ⟨x :: a, b, by simp [he], ?_⟩
      intro hm
      rcases List.mem_cons.1 hm with h | h
      · exact hx h.symm
      · exact ha h

theorem dropWhile_nil_all {α} {p : α → Bool} {l : List α} (h : l.dropWhile p = []) :
    ∀ x ∈ l, p x = true := by
  induction l with
  | nil => simp
  | cons a l ih =>
    rw [List.dropWhile_cons] at h
    split at h
    · next ha =>
      intro x hx
      rcases List.mem_cons.1 hx with rfl | hx
      · exact ha
      · exact ih h x hx
    · cases h

theorem nil_or_snoc {α} (l : List α) : l = [] ∨ ∃ m z, l = m ++ [z] := by
  rcases List.eq_nil_or_concat l with h | ⟨m, z, h⟩
  · exact .inl h
  · exact .inr ⟨m, z, by simpa using h⟩

end Pygcode
