import Verif.Net.WsPack
/-
What the parser accepts is exactly what follows the standard.
-/
namespace Sis.Ws
open BitS

theorem beBytes_beVal (l : Bytes) : beBytes l.length (beVal l) = l := by
  apply toBits_inj
  rw [← natBits_bytes, ← toBits_eq]

theorem masked_xorKey (key data : Bytes) : masked key (xorKey key 0 data) = data := by
  rw [xorKey_eq]
  unfold masked
  rw [List.mapIdx_mapIdx]
  apply List.ext_getElem?
  intro i
  rw [List.getElem?_mapIdx]
  cases data[i]? with
  | none => rfl
  | some b => simp [Function.comp, UInt8.xor_assoc]

theorem xorKey_length (key : Bytes) (i : Nat) (l : Bytes) : (xorKey key i l).length = l.length := by rw [xorKey_eq]; simp

theorem byte_eq {b : UInt8} {n : Nat} (h : n = b.toNat) : b = UInt8.ofNat n := by rw [h]; simp

theorem parse1_inv {inp : Bytes} {fin op : Nat} {d r : Bytes} (h : parse1 inp = some (fin, op, d, r)) :
    ∃ f : Frame, f.Ok ∧ inp = f.bytes ++ r ∧ f.op = op ∧ f.data = d ∧ fin = (if f.fin then 1 else 0) := by
  match inp with
  | [] => simp [parse1] at h
  | [_] => simp [parse1] at h
  | b0 :: b1 :: t =>
    simp only [parse1] at h
    split at h
    · cases h
    · rename_i c1
      split at h
      · cases h
      · rename_i c2
        split at h
        · cases h
        · rename_i c3
          injection h with h
          simp only [Prod.mk.injEq] at h
          obtain ⟨h1, h2, h3, h4⟩ := h
          have l0 := b0.toNat_lt
          have l1 := b1.toNat_lt
          obtain ⟨n, hn⟩ : ∃ n, n = b1.toNat % 128 := ⟨_, rfl⟩
          obtain ⟨m, hm⟩ : ∃ m, m = b1.toNat / 128 := ⟨_, rfl⟩
          rw [← hn] at c1 c2 c3 h3 h4
          rw [← hm] at c2 c3 h3 h4
          have hext : (extLen n = 0 ∧ n < 126) ∨ (extLen n = 2 ∧ n = 126) ∨ (extLen n = 8 ∧ n = 127) := by
            unfold extLen; by_cases a : n = 126
            · simp [a]
            · by_cases b : n = 127
              · simp [b]
              · simp only [if_neg a, if_neg b]; left; exact ⟨trivial, by omega⟩
          have dl : d.length = lenOf n t := by
            rw [← h3]
            split
            · rw [xorKey_length, List.length_take]; omega
            · rw [List.length_take]; omega
          have tl : (t.take (extLen n)).length = extLen n := by rw [List.length_take]; omega
          have ll : extLen n ≠ 0 → lenOf n t = beVal (t.take (extLen n)) := fun hne => by unfold lenOf; rw [if_neg hne]
          have lb : extLen n ≠ 0 → lenOf n t < 2 ^ (8 * extLen n) := fun hne => by
            have := beVal_lt (t.take (extLen n))
            rw [tl] at this; rw [ll hne]; exact this
          have bb : beBytes (extLen n) d.length = t.take (extLen n) := by
            by_cases he : extLen n = 0
            · rw [he]; rfl
            · have := beBytes_beVal (t.take (extLen n))
              rw [tl, ← ll he, ← dl] at this; exact this
          have hmm : m = 0 ∨ m = 1 := by omega
          refine ⟨⟨decide (b0.toNat / 128 = 1), b0.toNat / 16 % 8, b0.toNat % 16, extLen n,
            if m = 1 then some ((t.drop (extLen n)).take 4) else none, d⟩, ⟨?_, ?_, ?_, ?_⟩, ?_, h2, rfl, ?_⟩
          · simp only; omega
          · simp only; omega
          · simp only
            rcases hext with ⟨a, b⟩ | ⟨a, b⟩ | ⟨a, b⟩
            · left; refine ⟨a, ?_⟩; rw [dl]; unfold lenOf; rw [if_pos a]; exact b
            · right; left; refine ⟨a, ?_⟩; rw [dl]; have := lb (by omega); rw [a] at this; exact this
            · right; right; refine ⟨a, ?_⟩; rw [dl]; have := lb (by omega); rw [a] at this; exact this
          · intro k hk
            simp only at hk
            rcases hmm with a | a
            · rw [a] at hk; simp at hk
            · rw [a, if_pos rfl] at hk
              injection hk with hk
              rw [← hk, List.length_take]
              unfold keyLen at c2; rw [if_pos a] at c2; omega
          · unfold Frame.bytes
            simp only
            have e0 : b0 = UInt8.ofNat ((if decide (b0.toNat / 128 = 1) = true then 128 else 0) + b0.toNat / 16 % 8 * 16 + b0.toNat % 16) := by
              apply byte_eq
              simp only [decide_eq_true_eq]
              split <;> omega
            have en : (if extLen n = 0 then d.length else if extLen n = 2 then 126 else 127) = n := by
              rcases hext with ⟨a, b⟩ | ⟨a, b⟩ | ⟨a, b⟩
              · rw [if_pos a, dl]; unfold lenOf; rw [if_pos a]
              · rw [a, b]; rfl
              · rw [a, b]; rfl
            rw [en, bb]
            rcases hmm with a | a
            · have e1 : b1 = UInt8.ofNat (0 + n) := by apply byte_eq; omega
              simp only [a, if_neg (show ¬ (0 : Nat) = 1 by omega), Option.isSome_none, Bool.false_eq_true, if_false] at *
              rw [← e0, ← e1]
              simp only [List.cons_append, List.append_assoc]
              congr 2
              rw [← h3, ← h4]
              have : (t.drop (extLen n)).drop (keyLen 0) = t.drop (extLen n) := rfl
              rw [this, List.take_append_drop, List.take_append_drop]
            · have e1 : b1 = UInt8.ofNat (128 + n) := by apply byte_eq; omega
              simp only [a, if_true, Option.isSome_some] at *
              rw [← e0, ← e1]
              simp only [List.cons_append, List.append_assoc]
              congr 2
              rw [← h3, ← h4, masked_xorKey]
              have : (t.drop (extLen n)).drop (keyLen 1) = (t.drop (extLen n)).drop 4 := rfl
              rw [this, List.take_append_drop, List.take_append_drop, List.take_append_drop]
          · rw [← h1]; simp only [decide_eq_true_eq]; split <;> omega

theorem parseN_inv {n : Nat} {inp : Bytes} {op : Nat} {d r : Bytes} (h : parseN n inp = some (op, d, r)) :
    ∃ fs : List Frame, (∀ f ∈ fs, f.Ok) ∧ oneMessage fs ∧ inp = frameBytes fs ++ r ∧ opOf fs = op ∧ (fs.map Frame.data).flatten = d := by
  induction n generalizing inp op d r with
  | zero => cases h
  | succ n ih =>
    unfold parseN at h
    cases hp : parse1 inp with
    | none => rw [hp] at h; cases h
    | some t =>
      obtain ⟨fin, op1, d1, r1⟩ := t
      rw [hp] at h
      obtain ⟨f, fok, fe, fo, fd, ff⟩ := parse1_inv hp
      simp only at h
      by_cases hf : fin = 1
      · rw [if_pos hf] at h
        injection h with h
        simp only [Prod.mk.injEq] at h
        obtain ⟨h1, h2, h3⟩ := h
        have ffin : f.fin = true := by
          cases hc : f.fin with
          | true => rfl
          | false => rw [hc] at ff; simp at ff; omega
        exact ⟨[f], by simpa using fok, ffin, by simp [frameBytes, fe, h3], by simp [opOf, fo, h1], by simp [fd, h2]⟩
      · rw [if_neg hf] at h
        cases hq : parseN n r1 with
        | none => rw [hq] at h; cases h
        | some t2 =>
          obtain ⟨op2, d2, r2⟩ := t2
          rw [hq] at h
          injection h with h
          simp only [Prod.mk.injEq] at h
          obtain ⟨h1, h2, h3⟩ := h
          obtain ⟨fs, a1, a2, a3, a4, a5⟩ := ih hq
          have ffin : f.fin = false := by
            cases hc : f.fin with
            | false => rfl
            | true => rw [hc] at ff; simp at ff; omega
          refine ⟨f :: fs, ?_, ?_, ?_, by simp [opOf, fo, h1], ?_⟩
          · intro g hg
            rcases List.mem_cons.mp hg with e | e
            · rw [e]; exact fok
            · exact a1 g e
          · cases fs with
            | nil => exact absurd a2 id
            | cons g gs => exact ⟨ffin, a2⟩
          · rw [fe, a3, ← h3]; simp [frameBytes]
          · rw [List.map_cons, List.flatten_cons, fd, a5, h2]

theorem parse_inv {inp : Bytes} {op : Nat} {d r : Bytes} (h : parse inp = some (op, d, r)) :
    ∃ fs : List Frame, (∀ f ∈ fs, f.Ok) ∧ oneMessage fs ∧ inp = frameBytes fs ++ r ∧ opOf fs = op ∧ (fs.map Frame.data).flatten = d :=
  parseN_inv h

end Sis.Ws
