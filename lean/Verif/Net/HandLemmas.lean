import Verif.Net.Hand
import Verif.Net.HandSpec
import Verif.Net.ShaTheorems
import Verif.Net.WsTheorems
namespace Sis.Hand
open Sis Json HandSpec

/-! ### Searching -/

theorem prefix_cut {s u v : Bytes} {c : UInt8} (h : s <+: u ++ c :: v) (hc : c ∉ s) : s <+: u := by
  induction u generalizing s with
  | nil =>
    cases s with
    | nil => exact List.prefix_rfl
    | cons b s =>
      rw [List.nil_append, List.cons_prefix_cons] at h
      exact absurd (by rw [h.1]; exact List.mem_cons_self) hc
  | cons a u ih =>
    cases s with
    | nil => exact List.nil_prefix
    | cons b s =>
      rw [List.cons_append, List.cons_prefix_cons] at h
      rw [List.cons_prefix_cons]
      exact ⟨h.1, ih h.2 fun hm => hc (List.mem_cons_of_mem _ hm)⟩

theorem strsub_found {small : Bytes} (a b : Bytes) (i : Nat) (hs : small ≠ []) (h0 : (0 : UInt8) ∉ a)
    (h : ∀ k, k < a.length → ¬ small <+: (a ++ (small ++ b)).drop k) :
    strsub small i (a ++ (small ++ b)) = some (some (i + a.length)) := by
  induction a generalizing i with
  | nil =>
    cases small with
    | nil => exact absurd rfl hs
    | cons c cs =>
      simp only [List.nil_append, List.cons_append, strsub]
      rw [if_pos (List.isPrefixOf_iff_prefix.2 (by rw [← List.cons_append]; exact List.prefix_append _ _))]
      rfl
  | cons x a ih =>
    simp only [List.cons_append, strsub]
    have h1 := h 0 (by simp)
    rw [List.drop_zero, List.cons_append] at h1
    rw [if_neg (fun e => h1 (List.isPrefixOf_iff_prefix.1 e)), if_neg (fun e : x = 0 => h0 (by rw [e]; exact List.mem_cons_self)),
      ih (i + 1) (fun hm => h0 (List.mem_cons_of_mem _ hm)) (fun k hk => h (k + 1) (by simp only [List.length_cons]; omega))]
    simp only [List.length_cons]
    congr 2; omega

theorem strsub_none {small : Bytes} (a b : Bytes) (i : Nat) (h0 : (0 : UInt8) ∉ a)
    (h : ∀ k, k ≤ a.length → ¬ small <+: (a ++ 0 :: b).drop k) : strsub small i (a ++ 0 :: b) = some none := by
  induction a generalizing i with
  | nil =>
    have h1 := h 0 (Nat.le_refl _)
    rw [List.drop_zero, List.nil_append] at h1
    simp only [List.nil_append, strsub, if_true]
    rw [if_neg (fun e => h1 (List.isPrefixOf_iff_prefix.1 e))]
  | cons x a ih =>
    simp only [List.cons_append, strsub]
    have h1 := h 0 (by simp)
    rw [List.drop_zero, List.cons_append] at h1
    rw [if_neg (fun e => h1 (List.isPrefixOf_iff_prefix.1 e)), if_neg (fun e : x = 0 => h0 (by rw [e]; exact List.mem_cons_self)),
      ih (i + 1) (fun hm => h0 (List.mem_cons_of_mem _ hm)) (fun k hk => h (k + 1) (by simp only [List.length_cons]; omega))]

theorem strsub_out {small : Bytes} (a : Bytes) (i : Nat) (h0 : (0 : UInt8) ∉ a)
    (h : ∀ k, k < a.length → ¬ small <+: a.drop k) : strsub small i a = none := by
  induction a generalizing i with
  | nil => rfl
  | cons x a ih =>
    simp only [strsub]
    have h1 := h 0 (by simp)
    rw [List.drop_zero] at h1
    rw [if_neg (fun e => h1 (List.isPrefixOf_iff_prefix.1 e)), if_neg (fun e : x = 0 => h0 (by rw [e]; exact List.mem_cons_self)),
      ih (i + 1) (fun hm => h0 (List.mem_cons_of_mem _ hm)) (fun k hk => h (k + 1) (by simp only [List.length_cons]; omega))]

theorem strsub_infix {small : Bytes} (l x : Bytes) (i : Nat) (hs : small ≠ []) (h0 : (0 : UInt8) ∉ l) (h : small <:+: l) :
    ∃ k, strsub small i (l ++ x) = some (some k) := by
  induction l generalizing i with
  | nil => exact absurd (List.eq_nil_of_infix_nil h) hs
  | cons a l ih =>
    simp only [List.cons_append, strsub]
    by_cases hp : small.isPrefixOf (a :: (l ++ x)) = true
    · exact ⟨i, by rw [if_pos hp]⟩
    · rw [if_neg hp, if_neg (fun e : a = 0 => h0 (by rw [e]; exact List.mem_cons_self))]
      refine ih (i + 1) (fun hm => h0 (List.mem_cons_of_mem _ hm)) ?_
      rcases List.infix_cons_iff.1 h with h | h
      · exact absurd (List.isPrefixOf_iff_prefix.2 (by rw [← List.cons_append]; exact h.trans (List.prefix_append _ _))) hp
      · exact h

/-! ### Heads -/

/-- Lines with their ends. -/
def lines (ls : List Bytes) : Bytes := ls.flatMap fun l => l ++ [13, 10]

theorem crlf : text "\r\n" = [13, 10] := by decide +kernel
theorem eof_eq : eof = [13, 10, 13, 10] := by decide +kernel
theorem colon : text ": " = [58, 32] := by decide +kernel

theorem head_lines (first : Bytes) (hs : List Header) : head first hs = lines (first :: hs.map line) ++ [13, 10] := by
  unfold head lines
  rw [crlf, List.flatMap_cons, List.flatMap_map]

theorem lines_no_eof (ls : List Bytes) (rest : Bytes) (hp : ∀ l ∈ ls, ∀ c ∈ l, c ≠ 13) (hn : ∀ l ∈ ls.tail, l ≠ []) (k : Nat)
    (hk : k + 2 < (lines ls).length) : ¬ eof <+: (lines ls ++ rest).drop k := by
  rw [eof_eq]
  induction ls generalizing k with
  | nil => simp [lines] at hk
  | cons l ls ih =>
    have e : lines (l :: ls) ++ rest = l ++ (13 :: 10 :: (lines ls ++ rest)) := by simp [lines]
    have el : (lines (l :: ls)).length = l.length + 2 + (lines ls).length := by simp [lines]; omega
    rw [e]
    intro hx
    by_cases h1 : k < l.length
    · rw [List.drop_append_of_le_length (by omega)] at hx
      have : l.drop k = l[k] :: l.drop (k + 1) := List.drop_eq_getElem_cons h1
      rw [this, List.cons_append, List.cons_prefix_cons] at hx
      exact hp l List.mem_cons_self l[k] (List.getElem_mem h1) hx.1.symm
    · rw [List.drop_append, List.drop_of_length_le (by omega), List.nil_append] at hx
      by_cases h2 : k = l.length
      · rw [h2, Nat.sub_self, List.drop_zero, List.cons_prefix_cons, List.cons_prefix_cons] at hx
        cases ls with
        | nil =>
          have : (lines []).length = 0 := rfl
          omega
        | cons l' ls =>
          have hl' := hn l' (by simp)
          cases l' with
          | nil => exact hl' rfl
          | cons c l' =>
            have e3 : lines ((c :: l') :: ls) ++ rest = c :: (l' ++ [13, 10] ++ (lines ls ++ rest)) := by simp [lines]
            rw [e3, List.cons_prefix_cons] at hx
            exact hp (c :: l') (by simp) c (by simp) hx.2.2.1.symm
      · by_cases h3 : k = l.length + 1
        · rw [h3, show l.length + 1 - l.length = 1 by omega] at hx
          simp at hx
        · rw [show k - l.length = (k - l.length - 2) + 2 by omega] at hx
          simp only [List.drop_succ_cons] at hx
          exact ih (fun l hl => hp l (List.mem_cons_of_mem _ hl))
            (fun l hl => hn l (by rw [List.tail_cons]; exact List.mem_of_mem_tail hl)) (k - l.length - 2) (by omega) hx

theorem lines_no_name (name : Bytes) (hname : ∃ b s, name = b :: s ∧ b ≠ 10) (h13 : (13 : UInt8) ∉ name) (ls : List Bytes) (rest : Bytes)
    (hn : ∀ l ∈ ls, ¬ name <:+: l) (k : Nat) (hk : k < (lines ls).length) : ¬ name <+: (lines ls ++ rest).drop k := by
  induction ls generalizing k with
  | nil => simp [lines] at hk
  | cons l ls ih =>
    have e : lines (l :: ls) ++ rest = l ++ (13 :: 10 :: (lines ls ++ rest)) := by simp [lines]
    have el : (lines (l :: ls)).length = l.length + 2 + (lines ls).length := by simp [lines]; omega
    rw [e]
    intro hx
    by_cases h1 : k ≤ l.length
    · rw [List.drop_append_of_le_length h1] at hx
      have := prefix_cut hx h13
      exact hn l List.mem_cons_self (this.isInfix.trans (List.drop_suffix _ _).isInfix)
    · rw [List.drop_append, List.drop_of_length_le (by omega), List.nil_append] at hx
      by_cases h3 : k = l.length + 1
      · rw [h3, show l.length + 1 - l.length = 1 by omega] at hx
        obtain ⟨b, s, rfl, hb⟩ := hname
        simp only [List.drop_succ_cons, List.drop_zero, List.cons_prefix_cons] at hx
        exact hb hx.1
      · rw [show k - l.length = (k - l.length - 2) + 2 by omega] at hx
        simp only [List.drop_succ_cons] at hx
        exact ih (fun l hl => hn l (List.mem_cons_of_mem _ hl)) (k - l.length - 2) (by omega) hx

theorem line_ne (h : Header) : line h ≠ [] := by
  unfold line
  rw [colon]
  simp

/-- What is needed of a head. -/
theorem head_eof (first : Bytes) (hs : List Header) (hp : Plain first hs) :
    ∃ A, head first hs = A ++ eof ∧ (0 : UInt8) ∉ A ∧ ∀ rest k, k < A.length → ¬ eof <+: (A ++ (eof ++ rest)).drop k := by
  have hl : ∃ B, lines (first :: hs.map line) = B ++ [13, 10] := by
    rcases List.eq_nil_or_concat (first :: hs.map line) with h | ⟨a, b, h⟩
    · exact absurd h (by simp)
    · rw [h]
      exact ⟨lines a ++ b, by simp [lines]⟩
  obtain ⟨B, hB⟩ := hl
  have h0 : ∀ c ∈ lines (first :: hs.map line), c ≠ 0 := by
    intro c hc
    unfold lines at hc
    obtain ⟨l, hl, hc⟩ := List.mem_flatMap.1 hc
    rcases List.mem_append.1 hc with hc | hc
    · exact (hp l hl c hc).1
    · simp only [List.mem_cons, List.not_mem_nil, or_false] at hc
      rcases hc with rfl | rfl <;> decide
  refine ⟨B, by rw [head_lines, hB, eof_eq]; simp, ?_, ?_⟩
  · intro hm
    exact h0 0 (by rw [hB]; exact List.mem_append_left _ hm) rfl
  · intro rest k hk
    have := lines_no_eof (first :: hs.map line) ([13, 10] ++ rest) (fun l hl c hc => (hp l hl c hc).2.2)
      (by intro l hl; rw [List.tail_cons] at hl; obtain ⟨h, -, rfl⟩ := List.mem_map.1 hl; exact line_ne h) k (by rw [hB]; simp; omega)
    rw [hB] at this
    rw [eof_eq] at *
    simpa using this

/-! ### Memory -/

theorem fresh_length (j : Nat → UInt8) (n : Nat) : (fresh j n).length = n := by simp [fresh]

theorem cat_start (g : Nat → UInt8) (m : Mem) (ho : m.offset = 0) (hs : m.size ≤ m.buf.length) (p : Bytes) :
    ∃ X, cat g m p = ⟨m.buf.take m.size ++ p ++ X, m.size + p.length, 0⟩ := by
  obtain ⟨buf, size, off⟩ := m
  simp only at ho hs
  subst ho
  unfold cat
  by_cases h : 0 < p.length
  · rw [if_pos h]
    unfold grow
    simp only
    by_cases h2 : p.length + size ≤ buf.length
    · rw [if_pos h2]
      exact ⟨buf.drop (size + p.length), rfl⟩
    · rw [if_neg h2]
      simp only [Nat.sub_zero, List.drop_zero]
      rw [List.take_left' (by rw [List.length_take]; omega)]
      exact ⟨_, rfl⟩
  · rw [if_neg h]
    have : p = [] := by cases p with | nil => rfl | cons => simp at h
    subst this
    exact ⟨buf.drop size, by simp⟩

theorem cat_create (g j : Nat → UInt8) (p : Bytes) : ∃ X, cat g (create j) p = ⟨p ++ X, p.length, 0⟩ := by
  obtain ⟨X, h⟩ := cat_start g (create j) rfl (Nat.zero_le _) p
  exact ⟨X, by rw [h]; simp [create]⟩

theorem headComplete_head (first : Bytes) (hs : List Header) (hp : Plain first hs) (rest : Bytes) (n : Nat) :
    headComplete ⟨head first hs ++ rest, n, 0⟩ = some (some (head first hs).length) := by
  obtain ⟨A, hA, h0, hk⟩ := head_eof first hs hp
  have e : ptr ⟨head first hs ++ rest, n, 0⟩ = A ++ (eof ++ rest) := by simp [ptr, hA]
  unfold headComplete
  rw [e, strsub_found A rest 0 (by rw [eof_eq]; simp) h0 (hk rest)]
  simp [hA, eof_eq]

theorem skip_of {b : UInt8} (bs : Bytes) (h : b ≠ 32 ∧ b ≠ 58) : skip (58 :: 32 :: b :: bs) = some (b :: bs) := by
  simp [skip, h.1, h.2]

theorem signs_of (key x : Bytes) (h : ∀ c ∈ key, c ≠ 10 ∧ c ≠ 13) : signs key.length (key ++ x) = some key := by
  induction key with
  | nil => rfl
  | cons b k ih =>
    simp only [List.length_cons, List.cons_append, signs]
    rw [if_neg (by rintro (e | e); exact (h b List.mem_cons_self).2 e; exact (h b List.mem_cons_self).1 e),
      ih fun c hc => h c (List.mem_cons_of_mem _ hc)]
    rfl

theorem alphabet_ok : ∀ c ∈ ShaSpec.alphabet, c ≠ 32 ∧ c ≠ 58 ∧ c ≠ 10 ∧ c ≠ 13 ∧ c ≠ 0 := by decide +kernel

theorem keyName_eq : keyName = text "Sec-WebSocket-Key" := rfl

theorem getKey_both (stack dest : Bytes) (first : Bytes) (hs : List Header) (key X : Bytes) (n : Nat)
    (hr : Request first hs key) : getKey stack dest ⟨head first hs ++ X, n, 0⟩ = if (0 : UInt8) ∈ stack then some (some (key ++ [0] ++ dest.drop 25)) else none := by
  obtain ⟨hp, hsg, hlen, a, b, rfl, hn⟩ := hr
  have hsg' : ∀ c ∈ key, c ≠ 32 ∧ c ≠ 58 ∧ c ≠ 10 ∧ c ≠ 13 ∧ c ≠ 0 := by
    intro c hc
    rcases hsg c hc with h | h
    · exact alphabet_ok c h
    · subst h; decide
  have e : ptr ⟨head first (a ++ [⟨text "Sec-WebSocket-Key", key⟩] ++ b) ++ X, n, 0⟩ =
      lines (first :: a.map line) ++ (keyName ++ (58 :: 32 :: (key ++ ([13, 10] ++ (lines (b.map line) ++ ([13, 10] ++ X)))))) := by
    simp [ptr, head_lines, lines, line, colon, keyName_eq]
  have h0 : (0 : UInt8) ∉ lines (first :: a.map line) := by
    intro hc
    unfold lines at hc
    obtain ⟨l, hl, hc⟩ := List.mem_flatMap.1 hc
    rcases List.mem_append.1 hc with hc | hc
    · refine (hp l ?_ 0 hc).1 rfl
      rcases List.mem_cons.1 hl with rfl | hl
      · exact List.mem_cons_self
      · rw [List.map_append, List.map_append]
        exact List.mem_cons_of_mem _ (List.mem_append_left _ (List.mem_append_left _ hl))
    · simp at hc
  have hname : ∃ b s, keyName = b :: s ∧ b ≠ 10 := ⟨83, keyName.tail, by decide +kernel, by decide⟩
  have h13 : (13 : UInt8) ∉ keyName := by decide +kernel
  unfold getKey
  rw [e, strsub_found _ _ 0 (by decide +kernel) h0 (fun k hk => lines_no_name keyName hname h13 _ _ hn k hk)]
  simp only
  rw [Nat.zero_add, ← List.drop_drop, List.drop_left, List.drop_left]
  match key, hlen with
  | c :: cs, hlen =>
    have hc := hsg' c List.mem_cons_self
    rw [List.cons_append, skip_of _ ⟨hc.1, hc.2.1⟩, ← List.cons_append]
    generalize hk : c :: cs = key at *
    simp only [Option.bind_some]
    have := signs_of key ([13, 10] ++ (lines (b.map line) ++ ([13, 10] ++ X))) fun c hc => ⟨(hsg' c hc).2.2.1, (hsg' c hc).2.2.2.1⟩
    rw [hlen] at this
    rw [this]
    simp only [Option.bind_some]
    rw [if_neg (by omega)]
    have hm : (0 : UInt8) ∈ key ++ stack ↔ (0 : UInt8) ∈ stack := by
      rw [List.mem_append]
      exact ⟨fun h => h.resolve_left fun h => (hsg' 0 h).2.2.2.2 rfl, .inr⟩
    have ht : (cstrOf (key ++ stack)).take 24 = key := by
      unfold cstrOf
      rw [List.takeWhile_append_of_pos (by intro c hc; simpa using (hsg' c hc).2.2.2.2)]
      rw [List.take_left' hlen]
    rw [ht, hlen]
    simp only [hm]

theorem getKey_of (stack dest : Bytes) (hz : (0 : UInt8) ∈ stack) (first : Bytes) (hs : List Header) (key X : Bytes) (n : Nat)
    (hr : Request first hs key) : getKey stack dest ⟨head first hs ++ X, n, 0⟩ = some (some (key ++ [0] ++ dest.drop 25)) := by
  rw [getKey_both stack dest first hs key X n hr, if_pos hz]

theorem getKey_stack (stack dest : Bytes) (hz : (0 : UInt8) ∉ stack) (first : Bytes) (hs : List Header) (key X : Bytes) (n : Nat)
    (hr : Request first hs key) : getKey stack dest ⟨head first hs ++ X, n, 0⟩ = none := by
  rw [getKey_both stack dest first hs key X n hr, if_neg hz]

theorem getAns_of (w : Sha.Words) (key x : Bytes) (hlen : key.length = 24) (h : ∀ c ∈ key, c ∈ ShaSpec.alphabet ∨ c = 61) :
    getAns w (key ++ [0] ++ x) = some (answer key) := by
  have e : (key ++ [0] ++ x).take 24 ++ guid = key ++ text "258EAFA5-E914-47DA-95CA-C5AB0DC85B11" := by
    rw [List.append_assoc, List.take_left' hlen]; rfl
  have h0 : (key ++ text "258EAFA5-E914-47DA-95CA-C5AB0DC85B11").takeWhile (· != 0) = key ++ text "258EAFA5-E914-47DA-95CA-C5AB0DC85B11" := by
    rw [List.takeWhile_append_of_pos]
    · congr 1
      decide +kernel
    · intro c hc
      rcases h c hc with h | h
      · simpa using (alphabet_ok c h).2.2.2.2
      · subst h; rfl
  have hl : (key ++ text "258EAFA5-E914-47DA-95CA-C5AB0DC85B11").length < 2 ^ 28 := by
    have : (text "258EAFA5-E914-47DA-95CA-C5AB0DC85B11").length = 36 := by decide +kernel
    rw [List.length_append, hlen, this]; decide
  unfold getAns
  rw [e, Sha.C115_digest_partial w _ (by rw [h0]; exact hl), h0]
  obtain ⟨d, hd, hdl, -⟩ := Sha.C115_signs_partial w (key ++ text "258EAFA5-E914-47DA-95CA-C5AB0DC85B11") (by rw [h0]; exact hl)
  rw [Sha.C115_digest_partial w _ (by rw [h0]; exact hl), h0] at hd
  have hd := Option.some.inj hd
  simp only [Option.map_some, Option.some.injEq]
  unfold answer
  rw [hd, List.take_of_length_le (by simp [hdl])]
  have e1 : ansText = text "HTTP/1.1 101 Switching Protocols" ++ text "\r\n" ++ (line ⟨text "Upgrade", text "websocket"⟩ ++ text "\r\n") ++
      (line ⟨text "Connection", text "Upgrade"⟩ ++ text "\r\n") ++ (text "Sec-WebSocket-Accept" ++ text ": ") := by
    decide +kernel
  have e3 : eof = text "\r\n" ++ text "\r\n" := by decide +kernel
  rw [e1, e3]
  unfold head
  simp [line]

/-! ### A request -/

theorem recv_of (e : Env) (h0 : (0 : UInt8) ∈ e.stack) (first : Bytes) (hs : List Header) (key rest : Bytes) (hr : Request first hs key)
    (m : Mem) (p X : Bytes) (hX : cat e.grown m p = ⟨head first hs ++ rest ++ X, (head first hs ++ rest).length, 0⟩) :
    serverRecv e p (.handing m) = some (.working ⟨rest, true⟩, [.sent (answer key), .connected]) := by
  unfold serverRecv
  simp only [hX]
  have e1 := headComplete_head first hs hr.plain (rest ++ X) (head first hs ++ rest).length
  rw [← List.append_assoc] at e1
  obtain ⟨Y, hY⟩ := cat_create e.ansGrown e.ans (head first hs)
  have e2 : copyHead e ⟨head first hs ++ rest ++ X, (head first hs ++ rest).length, 0⟩ (head first hs).length =
      some ⟨head first hs ++ Y, (head first hs).length, 0⟩ := by
    unfold copyHead ptr
    rw [if_pos (by simp), ← hY]
    simp
  unfold recvAsk
  rw [e1]
  simp only
  rw [e2]
  simp only [Option.bind_some]
  rw [getKey_of e.stack e.dest h0 first hs key Y _ hr]
  simp only
  rw [getAns_of e.w key _ hr.length hr.signs]
  simp [move, unread]

/-! ### Pieces in memory of zeros -/

theorem fresh_zero (n : Nat) : fresh (fun _ => 0) n = List.replicate n 0 := by
  unfold fresh
  apply List.ext_getElem (by simp)
  intro i h1 h2
  simp

theorem cat_zeros (D p : Bytes) (n : Nat) (h255 : 255 ≤ D.length + n) : ∃ n', cat (fun _ => 0) ⟨D ++ List.replicate n 0, D.length, 0⟩ p =
    ⟨D ++ p ++ List.replicate n' 0, (D ++ p).length, 0⟩ ∧ (p.length ≤ n → n' = n - p.length) ∧ 255 ≤ (D ++ p).length + n' ∧ (n < p.length → 0 < n') := by
  unfold cat
  by_cases h : 0 < p.length
  · rw [if_pos h]
    unfold grow
    simp only
    by_cases h2 : p.length + D.length ≤ (D ++ List.replicate n (0 : UInt8)).length
    · rw [if_pos h2]
      refine ⟨n - p.length, ?_, fun _ => rfl, ?_⟩
      · simp only [List.take_left, List.length_append]
        rw [← List.drop_drop, List.drop_left, List.drop_replicate]
      · simp only [List.length_append, List.length_replicate] at h2 ⊢; omega
    · rw [if_neg h2]
      simp only [Nat.sub_zero, List.drop_zero, List.take_left, fresh_zero, List.drop_replicate]
      generalize hN : p.length + D.length + min (1024 * 1024 * 16) ((p.length + D.length + (D ++ List.replicate n (0 : UInt8)).length) / 2) = N
      have hbig : D.length + p.length < N := by rw [List.length_append, List.length_replicate] at hN; omega
      refine ⟨N - D.length - p.length, ?_, ?_, by simp only [List.length_append, List.length_replicate] at h2 ⊢; omega, fun _ => by omega⟩
      · rw [← List.drop_drop, List.drop_left, List.drop_replicate, List.length_append]
      · intro hc
        simp only [List.length_append, List.length_replicate] at h2
        omega
  · rw [if_neg h]
    have : p = [] := by cases p with | nil => rfl | cons => simp at h
    subst this
    exact ⟨n, by simp, fun _ => rfl, by simpa using h255, fun h => absurd h (by simp)⟩

theorem not_yet (first : Bytes) (hs : List Header) (hp : Plain first hs) (D E rest : Bytes) (hD : D ++ E = head first hs ++ rest)
    (hl : D.length < (head first hs).length) (k n : Nat) :
    headComplete ⟨D ++ List.replicate n 0, k, 0⟩ = if n = 0 then none else some none := by
  obtain ⟨A, hA, h0, hk⟩ := head_eof first hs hp
  have hno : ∀ k, ¬ eof <+: D.drop k := by
    intro k h
    have hlen := h.length_le
    rw [List.length_drop] at hlen
    have h4 : eof.length = 4 := by decide +kernel
    rw [hA, List.length_append] at hl
    refine hk rest k (by omega) ?_
    rw [← List.append_assoc, ← hA, ← hD, List.drop_append_of_le_length (by omega)]
    exact h.trans (List.prefix_append _ _)
  have h0D : (0 : UInt8) ∉ D := by
    intro hm
    have hpre : D <+: head first hs := by
      refine List.prefix_of_prefix_length_le (l₃ := head first hs ++ rest) ?_ (List.prefix_append _ _) (by omega)
      exact hD ▸ List.prefix_append _ _
    have := hpre.subset hm
    rw [hA] at this
    rcases List.mem_append.1 this with h | h
    · exact h0 h
    · exact absurd h (by decide +kernel)
  have he : (0 : UInt8) ∉ eof := by decide +kernel
  unfold headComplete ptr
  cases n with
  | zero =>
    simp only [List.replicate_zero, List.append_nil, List.drop_zero, if_true]
    rw [strsub_out D 0 h0D fun k _ => hno k]
    rfl
  | succ n =>
    simp only [List.replicate_succ, List.drop_zero]
    rw [strsub_none D _ 0 h0D]
    · rfl
    · intro k hk' hx
      rw [List.drop_append_of_le_length hk'] at hx
      exact hno k (prefix_cut hx he)

theorem pieces_zero (first : Bytes) (hs : List Header) (key rest : Bytes) (hr : Request first hs key) (ps : List (Env × Bytes)) (e : Env)
    (last : Bytes) (h0 : (0 : UInt8) ∈ e.stack) (hg : e.grown = fun _ => 0) (hgs : ∀ x ∈ ps, x.1.grown = fun _ => 0) (D : Bytes) (n : Nat)
    (h255 : 255 ≤ D.length + n) (hD : D ++ (ps.map Prod.snd).flatten ++ last = head first hs ++ rest)
    (hl : (D ++ (ps.map Prod.snd).flatten).length < (head first hs).length) :
    ((head first hs ++ rest).length < D.length + n → (server (.handing ⟨D ++ List.replicate n 0, D.length, 0⟩) (ps ++ [(e, last)])).isSome) ∧
    ∀ x, server (.handing ⟨D ++ List.replicate n 0, D.length, 0⟩) (ps ++ [(e, last)]) = some x →
      x = (.working ⟨rest, true⟩, [.sent (answer key), .connected]) := by
  induction ps generalizing D n with
  | nil =>
    simp only [List.map_nil, List.flatten_nil, List.append_nil] at hD hl
    obtain ⟨n', hc, -⟩ := cat_zeros D last n h255
    have := recv_of e h0 first hs key rest hr ⟨D ++ List.replicate n 0, D.length, 0⟩ last (List.replicate n' 0) (by rw [hg, hc, hD])
    simp only [List.nil_append, server, this, Option.bind_some, Option.map_some]
    exact ⟨fun _ => rfl, fun x hx => (Option.some.inj hx).symm⟩
  | cons y ps ih =>
    obtain ⟨e1, p⟩ := y
    simp only [List.map_cons, List.flatten_cons] at hD hl
    obtain ⟨n', hc, hn1, hn2, -⟩ := cat_zeros D p n h255
    have hg1 : e1.grown = fun _ => 0 := hgs (e1, p) List.mem_cons_self
    have hny := not_yet first hs hr.plain (D ++ p) ((ps.map Prod.snd).flatten ++ last) rest (by rw [← hD]; simp)
      (by simp only [List.length_append] at hl ⊢; omega) (D ++ p).length n'
    have hstep : serverRecv e1 p (.handing ⟨D ++ List.replicate n 0, D.length, 0⟩) =
        if n' = 0 then none else some (.handing ⟨D ++ p ++ List.replicate n' 0, (D ++ p).length, 0⟩, []) := by
      unfold serverRecv recvAsk
      simp only [hg1, hc, hny]
      by_cases hn : n' = 0
      · simp only [if_pos hn]; rfl
      · simp only [if_neg hn]; rfl
    obtain ⟨i1, i2⟩ := ih (fun x hx => hgs x (List.mem_cons_of_mem _ hx)) (D ++ p) n' hn2 (by rw [← hD]; simp)
      (by simp only [List.length_append] at hl ⊢; omega)
    simp only [List.cons_append, server, hstep]
    have hsum : (head first hs ++ rest).length = D.length + (p.length + ((ps.map Prod.snd).flatten.length + last.length)) := by
      rw [← hD]; simp only [List.length_append]; omega
    constructor
    · intro hlt
      have : p.length ≤ n := by omega
      have hn' := hn1 this
      rw [if_neg (by omega)]
      simp only [Option.bind_some]
      have := i1 (by have e := List.length_append (as := D) (bs := p); omega)
      simpa using this
    · intro x hx
      by_cases hn : n' = 0
      · rw [if_pos hn] at hx; simp at hx
      · rw [if_neg hn] at hx
        simp only [Option.bind_some, List.nil_append] at hx
        obtain ⟨y, hy, hyx⟩ := Option.map_eq_some_iff.1 hx
        rw [← hyx, i2 y hy]

/-! ### Requests without the header -/

theorem head_zero (first : Bytes) (hs : List Header) (hp : Plain first hs) : (0 : UInt8) ∉ head first hs := by
  obtain ⟨A, hA, h0, -⟩ := head_eof first hs hp
  rw [hA]
  intro h
  rcases List.mem_append.1 h with h | h
  · exact h0 h
  · exact absurd h (by decide +kernel)

theorem no_key (stack dest : Bytes) (first : Bytes) (hs : List Header) (hp : Plain first hs)
    (hn : ∀ l ∈ first :: hs.map line, ¬ text "Sec-WebSocket-Key" <:+: l) (n k : Nat) (h0 : 0 < n) :
    getKey stack dest ⟨head first hs ++ List.replicate n 0, k, 0⟩ = some none := by
  have hname : ∃ b s, keyName = b :: s ∧ b ≠ 10 := ⟨83, keyName.tail, by decide +kernel, by decide⟩
  have h13 : (13 : UInt8) ∉ keyName := by decide +kernel
  have hz : (0 : UInt8) ∉ keyName := by decide +kernel
  have e : ptr ⟨head first hs ++ List.replicate n 0, k, 0⟩ = head first hs ++ 0 :: List.replicate (n - 1) 0 := by
    obtain ⟨m, rfl⟩ : ∃ m, n = m + 1 := ⟨n - 1, by omega⟩
    simp [ptr, List.replicate_succ]
  unfold getKey
  rw [e, strsub_none _ _ 0 (head_zero first hs hp)]
  intro k hk hx
  rw [List.drop_append_of_le_length hk] at hx
  have hx := prefix_cut hx hz
  rw [head_lines] at hx hk
  by_cases h1 : k < (lines (first :: hs.map line)).length
  · exact lines_no_name keyName hname h13 _ [13, 10] hn k h1 hx
  · rw [List.drop_append, List.drop_of_length_le (by omega), List.nil_append] at hx
    have := hx.length_le
    have h17 : keyName.length = 17 := by decide +kernel
    rw [List.length_drop, h17] at this
    simp at this
    omega

theorem last_split {x y x' y' : Bytes} {c : UInt8} (h : x ++ c :: y = x' ++ c :: y') (hy : c ∉ y) (hy' : c ∉ y') : y = y' := by
  have key : ∀ x y : Bytes, c ∉ y → ((x ++ c :: y).reverse.takeWhile (· != c)).reverse = y := by
    intro x y hy
    rw [List.reverse_append, List.reverse_cons, List.append_assoc, List.takeWhile_append_of_pos, List.singleton_append,
      List.takeWhile_cons_of_neg (by simp)]
    · simp
    · intro b hb
      simp only [bne_iff_ne, ne_eq]
      intro e
      exact hy (by rw [← e]; exact List.mem_reverse.1 hb)
  rw [← key x y hy, h, key x' y' hy']

end Sis.Hand
