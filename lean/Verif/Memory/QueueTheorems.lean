import Verif.Memory.Queue
/-
C03: the memory buffer is a lossless byte queue under every history of operations.
-/
namespace Sis
namespace Mem

/-- Specification: an unbounded byte queue. Packing and growing are invisible; consuming more than is
there consumes everything. -/
def specStep (q : Bytes) : Op → Bytes
  | .cat bs => q ++ bs
  | .read bs => q ++ bs
  | .move n => q.drop n
  | .pack => q
  | .grow _ => q
  | .setMaxsize _ => q
  | .clear => []

/-- Specification of a history. -/
def specRun (q : Bytes) (os : List Op) : Bytes := os.foldl specStep q

/-- Cursors are ordered and inside the allocated block. -/
def Inv (m : Mem) : Prop := m.offset ≤ m.size ∧ m.size ≤ m.maxsize

theorem store_some {buf : Bytes} {pos : Nat} {bs : Bytes} (h : pos + bs.length ≤ buf.length) :
    store buf pos bs = some (buf.take pos ++ bs ++ buf.drop (pos + bs.length)) := by
  simp [store, h]

theorem store_length {buf b : Bytes} {pos : Nat} {bs : Bytes} (h : store buf pos bs = some b) :
    b.length = buf.length := by
  unfold store at h
  split at h
  · cases h; simp; omega
  · cases h

theorem unread_length (m : Mem) (h : Inv m) : m.unread.length = m.size - m.offset := by
  obtain ⟨h1, h2⟩ := h
  unfold maxsize at h2
  simp [unread]; omega

theorem load_unread (m : Mem) (h : Inv m) : load m.buf m.offset (m.size - m.offset) = some m.unread := by
  obtain ⟨h1, h2⟩ := h
  unfold maxsize at h2
  unfold load unread
  rw [if_pos (by omega)]
  congr 1
  rw [List.drop_take]

theorem pack_spec (m : Mem) (h : Inv m) : ∃ m', pack m = some m' ∧ Inv m' ∧ m'.unread = m.unread := by
  have hI := h
  obtain ⟨h1, h2⟩ := h
  unfold pack
  split
  · exact ⟨m, rfl, hI, rfl⟩
  split
  · refine ⟨_, rfl, ⟨by simp, by simp⟩, ?_⟩
    have := unread_length m hI
    have h0 : m.unread = [] := List.eq_nil_of_length_eq_zero (by omega)
    rw [h0]; simp [unread]
  split
  · have hl := load_unread m hI
    have hul := unread_length m hI
    have hmx : m.buf.length = m.maxsize := rfl
    simp only [getSize]
    rw [hl]
    simp only
    rw [store_some (by omega)]
    simp only
    rw [store_some (by simp; omega)]
    refine ⟨_, rfl, ⟨by simp, ?_⟩, ?_⟩
    · simp [maxsize]; omega
    · simp only [unread, List.drop_zero, List.take_zero, List.nil_append]
      rw [List.append_assoc, List.take_append_of_le_length (by simp; omega)]
      rw [List.take_take, Nat.min_self]
      rw [List.take_append_of_le_length (by change _ ≤ m.unread.length; omega)]
      rw [List.take_of_length_le (by change m.unread.length ≤ _; omega)]
  · exact ⟨m, rfl, hI, rfl⟩

theorem realloc_spec (junk : UInt8) (m : Mem) (h : Inv m) (n : Nat) (hn : m.maxsize ≤ n) :
    ∃ m', (if m.size - m.offset > 0 then
      match load m.buf m.offset (m.size - m.offset) with
      | none => none
      | some bs =>
        match store (List.replicate n junk) 0 bs with
        | none => none
        | some b => some (⟨b, m.size - m.offset, 0⟩ : Mem)
      else some ⟨List.replicate n junk, m.size - m.offset, 0⟩) = some m' ∧ Inv m' ∧ m'.unread = m.unread
      ∧ m'.maxsize = n ∧ m'.size = m.size - m.offset := by
  have hI := h
  obtain ⟨h1, h2⟩ := h
  have hul := unread_length m hI
  split
  · rw [load_unread m hI]
    simp only
    rw [store_some (by simp; omega)]
    refine ⟨_, rfl, ⟨by simp, ?_⟩, ?_, ?_, rfl⟩
    · simp [maxsize]; omega
    · simp only [unread, List.drop_zero, List.take_zero, List.nil_append]
      rw [List.take_append_of_le_length (by change _ ≤ m.unread.length; omega)]
      rw [List.take_of_length_le (by change m.unread.length ≤ _; omega)]
    · simp [maxsize]; omega
  · refine ⟨_, rfl, ⟨by simp, ?_⟩, ?_, ?_, rfl⟩
    · simp [maxsize] at *; omega
    · have h0 : m.unread = [] := List.eq_nil_of_length_eq_zero (by omega)
      rw [h0]; simp [unread]; omega
    · simp [maxsize]

theorem grow_spec (junk : UInt8) (m : Mem) (h : Inv m) (n : Nat) :
    ∃ m', grow junk m n = some m' ∧ Inv m' ∧ m'.unread = m.unread ∧
      m'.size + (n - m.size) ≤ m'.maxsize := by
  unfold grow
  split
  · obtain ⟨m', h1, h2, h3, h4, h5⟩ :=
      realloc_spec junk m h (n + min memorySize ((n + m.maxsize) / 2)) (by omega)
    refine ⟨m', h1, h2, h3, ?_⟩
    have := h.1; have := h.2
    omega
  · have := h.1; have := h.2
    exact ⟨m, rfl, h, rfl, by omega⟩

theorem setMaxsize_spec (junk : UInt8) (m : Mem) (h : Inv m) (n : Nat) :
    ∃ m', setMaxsize junk m n = some m' ∧ Inv m' ∧ m'.unread = m.unread := by
  unfold setMaxsize
  split
  · obtain ⟨m', h1, h2, h3, _, _⟩ := realloc_spec junk m h (n + 256) (by omega)
    exact ⟨m', h1, h2, h3⟩
  · exact ⟨m, rfl, h, rfl⟩

theorem append_spec (m : Mem) (h : Inv m) (bs : Bytes) (hroom : m.size + bs.length ≤ m.maxsize) :
    ∃ b, store m.buf m.size bs = some b ∧ Inv { m with buf := b, size := m.size + bs.length } ∧
      unread { m with buf := b, size := m.size + bs.length } = m.unread ++ bs := by
  obtain ⟨h1, h2⟩ := h
  unfold maxsize at hroom h2
  refine ⟨_, store_some hroom, ⟨?_, ?_⟩, ?_⟩
  · simp; omega
  · simp [maxsize]; omega
  · unfold unread
    simp only
    rw [List.take_append_of_le_length (by simp; omega)]
    rw [List.take_of_length_le (by simp; omega)]
    rw [List.drop_append_of_le_length (by simp; omega)]

theorem cat_spec (junk : UInt8) (m : Mem) (h : Inv m) (bs : Bytes) :
    ∃ m', cat junk m bs = some m' ∧ Inv m' ∧ m'.unread = m.unread ++ bs := by
  unfold cat
  split
  · obtain ⟨m1, h1, h2, h3, h4⟩ := grow_spec junk m h (bs.length + m.size)
    obtain ⟨b, h5, h6, h7⟩ := append_spec m1 h2 bs (by omega)
    rw [h1]; simp only; rw [h5]
    exact ⟨_, rfl, h6, by rw [h7, h3]⟩
  · have : bs = [] := List.eq_nil_of_length_eq_zero (by omega)
    subst this
    exact ⟨m, rfl, h, by simp⟩

theorem read_spec (junk : UInt8) (m : Mem) (h : Inv m) (bs : Bytes) :
    ∃ m', read junk m bs = some m' ∧ Inv m' ∧ m'.unread = m.unread ++ bs := by
  unfold read
  split
  · have : bs = [] := List.eq_nil_of_length_eq_zero (by omega)
    subst this
    exact ⟨m, rfl, h, by simp⟩
  · obtain ⟨m0, g1, g2, g3⟩ := pack_spec m h
    obtain ⟨m1, h1, h2, h3, h4⟩ := grow_spec junk m0 g2 (bs.length + m0.size)
    obtain ⟨b, h5, h6, h7⟩ := append_spec m1 h2 bs (by omega)
    rw [g1]; simp only; rw [h1]; simp only; rw [h5]
    exact ⟨_, rfl, h6, by rw [h7, h3, g3]⟩

theorem move_spec (m : Mem) (h : Inv m) (n : Nat) :
    Inv (move m n) ∧ (move m n).unread = m.unread.drop n := by
  obtain ⟨h1, h2⟩ := h
  unfold move
  split
  · refine ⟨⟨by simpa, h2⟩, ?_⟩
    simp [unread, List.drop_drop]
  · refine ⟨⟨by simp, h2⟩, ?_⟩
    simp only [unread, List.drop_drop]
    rw [List.drop_of_length_le (by simp; omega), List.drop_of_length_le (by simp; omega)]

theorem step_spec (junk : UInt8) (m : Mem) (h : Inv m) (o : Op) :
    ∃ m', step junk m o = some m' ∧ Inv m' ∧ m'.unread = specStep m.unread o := by
  cases o with
  | cat bs => exact cat_spec junk m h bs
  | read bs => exact read_spec junk m h bs
  | move n => exact ⟨_, rfl, move_spec m h n⟩
  | pack => exact pack_spec m h
  | grow n => obtain ⟨m', a, b, c, _⟩ := grow_spec junk m h n; exact ⟨m', a, b, c⟩
  | setMaxsize n => exact setMaxsize_spec junk m h n
  | clear => exact ⟨_, rfl, ⟨by simp [clear], by simp [clear]⟩, by simp [clear, unread, specStep]⟩

theorem run_spec (junk : UInt8) (os : List Op) (m : Mem) (h : Inv m) :
    ∃ m', run junk m os = some m' ∧ Inv m' ∧ m'.unread = specRun m.unread os := by
  induction os generalizing m with
  | nil => exact ⟨m, rfl, h, rfl⟩
  | cons o os ih =>
    obtain ⟨m1, a, b, c⟩ := step_spec junk m h o
    obtain ⟨m2, d, e, f⟩ := ih m1 b
    refine ⟨m2, ?_, e, ?_⟩
    · simp [run, a, d]
    · rw [f, c]; rfl

/-- **C03** For every history of operations on a fresh buffer, of default or requested size: no access
outside the allocated block happens, the read cursor never passes the write cursor, the write cursor
never passes the capacity, and the unread bytes are those of an unbounded queue. -/
theorem C03_memory_is_queue (junk : UInt8) (os : List Op) (m₀ : Mem)
    (h₀ : m₀ = create junk ∨ ∃ n, m₀ = createSize junk n) :
    ∃ m, run junk m₀ os = some m ∧ m.offset ≤ m.size ∧ m.size ≤ m.maxsize ∧ m.unread = specRun [] os := by
  have hI : Inv m₀ ∧ m₀.unread = [] := by
    have hz : m₀.size = 0 ∧ m₀.offset = 0 := by rcases h₀ with rfl | ⟨n, rfl⟩ <;> exact ⟨rfl, rfl⟩
    exact ⟨⟨by omega, by omega⟩, by simp [unread, hz.1]⟩
  obtain ⟨m, a, b, c⟩ := run_spec junk os m₀ hI.1
  exact ⟨m, a, b.1, b.2, by rw [c, hI.2]⟩

/-- What `sis_memory_get_size` reports is the length of the queue. -/
theorem C03_size_is_queue_length (junk : UInt8) (os : List Op) :
    ∃ m, run junk (create junk) os = some m ∧ m.getSize = (specRun [] os).length := by
  obtain ⟨m, a, b, c, d⟩ := C03_memory_is_queue junk os (create junk) (Or.inl rfl)
  exact ⟨m, a, by rw [← d, unread_length m ⟨b, c⟩]; rfl⟩

example : specRun [] [.cat [1, 2, 3], .move 2, .pack, .read [4, 5], .grow 1000, .cat [6]] = [3, 4, 5, 6] := by
  decide

end Mem
end Sis
