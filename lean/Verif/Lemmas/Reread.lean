import Verif.Props.LinePrint

/-!
# Reading printed gcodes as a line
-/

namespace Pygcode.Props
open Pygcode Pygcode.Spec

/-- Gcodes and left-over words in an order that can stand on one line are read back from their
printed form as a line without comment and macro. -/
theorem line_reread (gs : List GCode) (mp : List Word)
    (hcl : ∀ g ∈ gs, wordClass g.word = some g.cls)
    (hg : ∀ g ∈ gs, GOK g) (ho : Ordered gs) (hws : ∀ g ∈ gs, g.ws = false)
    (hm : ∀ w ∈ mp, wordClass w = none) (hd : ∀ g ∈ gs, ∀ w ∈ mp, w.letter ∉ g.cls.params)
    (hp : ∀ w ∈ gs.flatMap (fun g => g.word :: g.params) ++ mp, PlainWord w)
    (hn : ¬ Conflict gs) :
    Line.ofText (joinWith [' '] (gs.map GCode.str ++ mp.map Word.str)) =
      .ok ⟨⟨printedWords gs mp, gs.map canon, mp⟩, none, none⟩ := by
  have hpr : ∀ w ∈ printedWords gs mp, PlainWord w :=
    fun w hw => hp w ((printed_perm _ _).mem_iff.1 hw)
  have hstr := block_str_join gs mp hws
  have hsp : NoSpecial (joinWith [' '] (gs.map GCode.str ++ mp.map Word.str)) := by
    rw [hstr]; exact plain_noSpecial _ hpr
  have hlast : ∀ x ∈ (joinWith [' '] (gs.map GCode.str ++ mp.map Word.str)).getLast?, isSpace x = false := by
    rw [hstr]
    apply join_last
    intro s hs
    obtain ⟨w, hwm, rfl⟩ := List.mem_map.1 hs
    exact ⟨by simp [Word.str], plain_str_no_blank (hpr w hwm)⟩
  obtain ⟨w, hparts, hwb⟩ := parts_printed _ _ none none hsp hlast (.inl rfl) trivial (by simp) (.inl rfl)
  have hre := print_reread gs mp [] w blank_nil hwb hcl hg ho hws hm hd hp hn
  rw [List.nil_append] at hre
  simp only [Option.map_none, Option.toList_none, List.append_nil] at hparts
  have hj : joinWith [' '] [joinWith [' '] (gs.map GCode.str ++ mp.map Word.str)] =
      joinWith [' '] (gs.map GCode.str ++ mp.map Word.str) := rfl
  rw [hj] at hparts
  unfold Line.ofText
  rw [hparts]
  simp only
  rw [hre]

end Pygcode.Props
