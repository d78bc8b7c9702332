import Verif.Strs.SdsLemmas
/-
C127: strings hold the bytes that were put into them.
-/
namespace Sis.Sds
open Sis

/-- C127: a string made of any bytes, and any calls on it: none reads or writes outside of its memory, and in the end it has the length
and the bytes it should have, with a zero behind them.  The bytes on the way and those a call asks for are fewer than 2^62. -/
theorem C127_strings_partial (x : Bytes) (ops : List Op) (ha : ∀ o ∈ ops, asked o < 2 ^ 62)
    (hv : ∀ l1 l2, ops = l1 ++ l2 → (value x l1).length < 2 ^ 62) :
    ∃ s, (newLen (x.map some)).bind (fun s => run s ops) = some s ∧ s.len = (value x ops).length ∧
      peek s (s.len + 1) = some ((value x ops).map some ++ [some 0]) := by
  obtain ⟨s0, e0, g0⟩ := good_new x (hv [] ops rfl)
  obtain ⟨s, e, g⟩ := good_run ops s0 x g0 ha hv
  refine ⟨s, by rw [e0, Option.bind_some, e], g.2.1, ?_⟩
  have hm := good_room g
  unfold peek
  rw [if_pos (by have := g.2.1; omega), good_take g]

/-- C127: when room for `n` bytes was asked for, there is room for them: `sis_sdsavail` says so, and what lies behind the string may
be written, the zero at the end included. -/
theorem C127_room (x : Bytes) (ops : List Op) (ha : ∀ o ∈ ops, asked o < 2 ^ 62)
    (hv : ∀ l1 l2, ops = l1 ++ l2 → (value x l1).length < 2 ^ 62) (n : Nat) (hn : n < 2 ^ 62) :
    ∃ s, (newLen (x.map some)).bind (fun s => run s (ops ++ [.room n])) = some s ∧ n ≤ avail s ∧
      ∀ b : List (Option UInt8), b.length ≤ n + 1 → (poke s s.len b).isSome = true := by
  obtain ⟨s0, e0, g0⟩ := good_new x (hv [] ops rfl)
  obtain ⟨s, e, g⟩ := good_run ops s0 x g0 ha hv
  have hl := hv ops [] (by simp)
  obtain ⟨s1, e1, g1, h1, h2⟩ := good_addLen s _ n g (by omega)
  have hr : ∀ (l : List Op) (s s' s'' : Sds) (o : Op), run s l = some s' → step s' o = some s'' → run s (l ++ [o]) = some s'' := by
    intro l
    induction l with
    | nil => intro s s' s'' o h h'; cases h; simp [run, h']
    | cons a l ih =>
      intro s s' s'' o h h'
      rw [run] at h
      cases ha : step s a with
      | none => rw [ha] at h; cases h
      | some q =>
        rw [ha, Option.bind_some] at h
        rw [List.cons_append, run, ha, Option.bind_some, ih q s' s'' o h h']
  refine ⟨s1, by rw [e0, Option.bind_some, hr ops s0 s s1 (.room n) e e1], h1, fun b hb => ?_⟩
  have h3 := g1.2.1
  have h4 := h2.2
  rw [poke_eq _ _ _ (by omega)]; rfl

/-- Where the code fails: a string appended to itself is read after its memory was freed, unless there is room for it. -/
theorem C127_violated_self :
    (newLen [some 97, some 98]).bind catSelf = none ∧
    (((newLen [some 97, some 98]).bind fun s => addLen s 2).bind catSelf).bind (fun s => peek s (s.len + 1)) =
      some [some 97, some 98, some 97, some 98, some 0] := by
  decide +kernel

/-- Where the code fails: asked for the bytes from the first to one before the first, `sis_sdsrange` keeps the first byte; to the last
position there can be, it computes a size that does not fit. -/
theorem C127_violated_range :
    (((newLen [some 97, some 98]).bind fun s => range s 0 (-3)).bind fun s => peek s (s.len + 1)) = some [some 97, some 0] ∧
    ((newLen [some 97, some 98]).bind fun s => range s 0 (2 ^ 63 - 1)) = none := by
  decide +kernel

/-- Where the code fails: `sis_sdstrim` asked to take off dots takes zeros off, too. -/
theorem C127_violated_trim :
    (((newLen [some 46, some 0, some 97, some 0]).bind fun s => trim s [46]).bind fun s => peek s (s.len + 1)) = some [some 97, some 0] := by
  decide +kernel

/-- A string of 31 bytes, whose length is in the byte of its type, grows over 255 bytes and is cut to one byte. -/
example : ((newLen (List.replicate 31 (some 97))).bind fun s => run s [.cat [98], .grow 300, .dup, .cpy [99], .shrink, .cat []]) =
    some ⟨0, 1, 0, [some 99, some 0]⟩ := by
  decide +kernel

example : ∀ o ∈ [Op.cat [98], .grow 300, .dup, .cpy [99], .shrink, .cat []], asked o < 2 ^ 62 := by
  simp [asked]

example : ((newLen [some 46, some 97, some 98, some 99, some 46]).bind fun s => run s [.trim [46, 32], .range 1 (-1)]).bind (fun s => peek s (s.len + 1)) =
    some [some 98, some 99, some 0] ∧ value [46, 97, 98, 99, 46] [.trim [46, 32], .range 1 (-1)] = [98, 99] := by
  decide +kernel

end Sis.Sds
