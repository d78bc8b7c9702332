import Verif.Strs.SdsFmtLemmas
/-
C128: a text with arguments is appended as it was asked for.
-/
namespace Sis.Sds
open Sis

/-- C128: a string with any history, any format and arguments that fit it, and any calls afterwards: nothing outside of the memory is
read or written, the format's text is appended, and the string goes on as one that holds it. -/
theorem C128_format_partial (x : Bytes) (ops ops' : List Op) (ps : List Piece) (ha : ∀ o ∈ ops ++ ops', asked o < 2 ^ 62)
    (hv : ∀ l1 l2, ops = l1 ++ l2 → (value x l1).length < 2 ^ 62)
    (hv' : ∀ l1 l2, ops' = l1 ++ l2 → (value (value x ops ++ output ps) l1).length < 2 ^ 62) (hp : ∀ p ∈ ps, Proper p) :
    ∃ s, (((newLen (x.map some)).bind fun s => run s ops).bind fun s => catFmt s (format ps) (arguments ps)).bind (fun s => run s ops') = some s ∧
      s.len = (value (value x ops ++ output ps) ops').length ∧
      peek s (s.len + 1) = some ((value (value x ops ++ output ps) ops').map some ++ [some 0]) := by
  obtain ⟨s0, e0, g0⟩ := good_new x (hv [] ops rfl)
  obtain ⟨s1, e1, g1⟩ := good_run ops s0 x g0 (fun o h => ha o (by simp [h])) hv
  have hl := hv' [] ops' rfl
  obtain ⟨s2, e2, g2⟩ := fmt_ok ps _ s1 _ g1 hp (by simpa [value] using hl)
  obtain ⟨s, e, g⟩ := good_run ops' s2 _ g2 (fun o h => ha o (by simp [h])) hv'
  refine ⟨s, ?_, g.2.1, ?_⟩
  · rw [e0, Option.bind_some, e1, Option.bind_some]
    unfold catFmt
    rw [g1.2.1, e2, Option.bind_some, e]
  · have hm := good_room g
    unfold peek
    rw [if_pos (by have := g.2.1; omega), good_take g]

/-- Where the code fails: behind a format that ends with `%` it is read on; and the smallest `long long` overflows. -/
theorem C128_violated_end :
    ((newLen [some 97]).bind fun s => catFmt s [98, 37] []) = none ∧
    ((newLen [some 97]).bind fun s => catFmt s [37, 73] [.long (-2 ^ 63)]) = none := by
  constructor
  · decide +kernel
  · simp [newLen, catFmt]
    decide +kernel

/-- Pieces as C128 asks for: `k=%i,%S%%%U`. -/
def demoPieces : List Piece := [.byte 107, .byte 61, .arg (.int (-42)), .byte 44, .arg (.sds [0, 7]), .percent 37, .arg (.ulong (2 ^ 64 - 1))]

example : (∀ p ∈ demoPieces, Proper p) ∧ format demoPieces = [107, 61, 37, 105, 44, 37, 83, 37, 37, 37, 85] ∧
    (arguments demoPieces).length = 3 := by
  refine ⟨?_, by decide, rfl⟩
  intro p hp
  simp only [demoPieces, List.mem_cons, List.not_mem_nil, or_false] at hp
  rcases hp with rfl | rfl | rfl | rfl | rfl | rfl | rfl <;> simp [Proper]

end Sis.Sds
