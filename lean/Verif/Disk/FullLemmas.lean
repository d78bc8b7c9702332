import Verif.Disk.LogLemmas
import Verif.Disk.SmoothSpec
/- Reading a file of blocks in pieces: helper facts. -/
namespace Sis.Disk

/-- Blocks in a file. -/
def encBlocks (bs : List (UInt8 × Bytes)) : Bytes := bs.flatMap fun b => encRec b.1 b.2

theorem encBlocks_cons (b : UInt8 × Bytes) (bs : List (UInt8 × Bytes)) : encBlocks (b :: bs) = encRec b.1 b.2 ++ encBlocks bs := rfl

theorem encBlocks_append (as bs : List (UInt8 × Bytes)) : encBlocks (as ++ bs) = encBlocks as ++ encBlocks bs := by simp [encBlocks]

/-- The cut `q` into blocks is not in a size field, behind the first four bytes of the block. -/
def CutAt (bs : List (UInt8 × Bytes)) (q : Nat) : Prop :=
  ∀ pre b post, bs = pre ++ b :: post → (encBlocks pre).length + 4 ≤ q → (encBlocks pre).length + hdrLen b.2 ≤ q

theorem CutAt.tail {as bs : List (UInt8 × Bytes)} {q : Nat} (h : CutAt (as ++ bs) ((encBlocks as).length + q)) : CutAt bs q := by
  intro pre b post he hq
  have := h (as ++ pre) b post (by rw [he, List.append_assoc]) (by rw [encBlocks_append, List.length_append]; omega)
  rw [encBlocks_append, List.length_append] at this
  omega

theorem CutAt.head {b : UInt8 × Bytes} {bs : List (UInt8 × Bytes)} {q : Nat} (h : CutAt (b :: bs) q) (hq : 4 ≤ q) : hdrLen b.2 ≤ q := by
  have := h [] b bs rfl (by simpa [encBlocks] using hq)
  simpa [encBlocks] using this

/-- A block as the scan reports it. -/
def tagB (b : UInt8 × Bytes) : UInt8 × Nat × Bytes := (b.1, (catSsize b.2.length).length, b.2)

/-- Blocks that are handed on. -/
def BlockOk (b : UInt8 × Bytes) : Prop := hidOf b.1 ≠ 0 ∧ hidOf b.1 ≠ 31 ∧ b.2.length < 2 ^ 64

/-- Where the scan stands: `todo` are the blocks not yet passed, `tl` the tail of the file, `rest` the bytes not yet read. -/
inductive AtB (s : Scan) (todo : List (UInt8 × Bytes)) (tl rest : Bytes) : Prop
  | head (hl : s.lineEnd = true) (hz : s.size = 0) (hm : s.mem ++ rest = encBlocks todo ++ tl) (hlt : s.mem.length < 4)
  | body (b : UInt8 × Bytes) (t : List (UInt8 × Bytes)) (ht : todo = b :: t) (hl : s.lineEnd = false) (hz : s.size = b.2.length) (hh : s.head = b.1)
      (hn : s.hlen = (catSsize b.2.length).length) (hm : s.mem ++ rest = b.2 ++ (encBlocks t ++ tl)) (hr : 0 < b.2.length)
      (hlt : s.mem.length < b.2.length ∨ s.mem.length < 4)

/-- The scan goes on. -/
def GoesOn (s : Scan) (s' : Scan) (todo : List (UInt8 × Bytes)) (tl rest : Bytes) : Prop :=
  ∃ done todo', todo = done ++ todo' ∧ s'.out = s.out ++ done.map tagB ∧ ((s'.stop = true ∧ todo' = []) ∨ (s'.stop = false ∧ AtB s' todo' tl rest))

theorem scan_head {t : UInt8} (ht : hidOf t = 31) (tl : Bytes) (todo : List (UInt8 × Bytes)) (hok : ∀ b ∈ todo, BlockOk b) :
    ∀ (s : Scan) (rest : Bytes), s.lineEnd = true → s.size = 0 → s.stop = false → s.mem ++ rest = encBlocks todo ++ t :: tl → CutAt todo s.mem.length →
      ∃ s', scanInner (fullCfg fun _ _ => .next) s = some s' ∧ GoesOn s s' todo (t :: tl) rest := by
  have hmin : (fullCfg fun _ _ => .next).min = 4 := rfl
  induction todo with
  | nil =>
    intro s rest h1 h2 h3 h4 _
    by_cases hm4 : 4 ≤ s.mem.length
    · rw [scanInner, if_pos (by rw [hmin]; exact hm4), if_pos h1]
      split
      · rename_i hm; rw [hm] at hm4; simp at hm4
      · rename_i b m hm
        have hb : b = t := by
          rw [hm] at h4
          simp only [encBlocks, List.flatMap_nil, List.nil_append, List.cons_append, List.cons.injEq] at h4
          exact h4.1
        subst hb
        rw [if_pos (by show (hidOf b == hidTail) = true; rw [ht]; decide)]
        exact ⟨_, rfl, [], [], rfl, by simp, .inl ⟨rfl, rfl⟩⟩
    · refine ⟨s, ?_, [], [], rfl, by simp, .inr ⟨h3, .head h1 h2 h4 (by omega)⟩⟩
      unfold scanInner; rw [if_neg (by rw [hmin]; exact hm4)]
  | cons r bs ih =>
    intro s rest h1 h2 h3 h4 h5
    by_cases hm4 : 4 ≤ s.mem.length
    · have hhdr := h5.head hm4
      obtain ⟨hk1, hk2, hk3⟩ := hok r (by simp)
      have hh : hdrLen r.2 = (r.1 :: catSsize r.2.length).length := by simp [hdrLen]; omega
      rw [encBlocks_cons, show encRec r.1 r.2 ++ encBlocks bs ++ t :: tl = (r.1 :: catSsize r.2.length) ++ (r.2 ++ (encBlocks bs ++ t :: tl)) by simp [encRec]] at h4
      obtain ⟨e, he1, he2⟩ := append_split h4 (by omega)
      have hss : getSsize (catSsize r.2.length ++ e) = some (r.2.length, e) := C01_ssize_roundtrip _ hk3 e
      have hk : (catSsize r.2.length ++ e).length - e.length = (catSsize r.2.length).length := by simp
      rw [scanInner, if_pos (by rw [hmin]; exact hm4), if_pos h1]
      split
      · rename_i hm; rw [he1] at hm; cases hm
      · rename_i b m hm
        rw [he1] at hm
        simp only [List.cons_append, List.cons.injEq] at hm
        obtain ⟨hb, hm⟩ := hm
        subst hb
        rw [if_neg (by show ¬ (hidOf r.1 == hidTail) = true; simpa [hidTail] using hk2)]
        split
        · rename_i hg; rw [← hm, hss] at hg; cases hg
        · rename_i n m' hg
          rw [← hm, hss] at hg
          simp only [Option.some.injEq, Prod.mk.injEq] at hg
          obtain ⟨hn, hm'⟩ := hg
          subst hn hm'
          rw [← hm]
          simp only [hk]
          by_cases hlt : e.length < r.2.length
          · rw [if_pos hlt]
            exact ⟨_, rfl, [], r :: bs, rfl, by simp, .inr ⟨h3, .body r bs rfl rfl rfl rfl rfl he2 (by omega) (.inl hlt)⟩⟩
          · rw [if_neg hlt]
            obtain ⟨e2, hf1, hf2⟩ := append_split he2 (by omega)
            have htake : e.take r.2.length = r.2 := by rw [hf1, List.take_left]
            have hdrop : e.drop r.2.length = e2 := by rw [hf1, List.drop_left]
            have hact : (fullCfg fun _ _ => .next).act r.1 r.2 = .next := by
              show (if hidOf r.1 = hidNone then Act.bad else .next) = _
              rw [if_neg (by simpa [hidNone] using hk1)]
            rw [htake, hdrop, hact]
            simp only
            have hcut : CutAt bs e2.length := by
              have hlen2 : s.mem.length = (encBlocks [r]).length + e2.length := by
                rw [he1, hf1]; simp [encBlocks, encRec]; omega
              rw [hlen2] at h5
              exact CutAt.tail (as := [r]) h5
            obtain ⟨s', g1, done, todo', g2, g3, g4⟩ := ih (fun x hx => hok x (by simp [hx]))
              { s with mem := e2, size := 0, head := r.1, hlen := (catSsize r.2.length).length, out := s.out ++ [(r.1, (catSsize r.2.length).length, r.2)] }
              rest h1 rfl h3 hf2 hcut
            exact ⟨s', g1, r :: done, todo', by rw [g2]; rfl, by rw [g3]; simp [tagB], g4⟩
    · refine ⟨s, ?_, [], r :: bs, rfl, by simp, .inr ⟨h3, .head h1 h2 h4 (by omega)⟩⟩
      unfold scanInner; rw [if_neg (by rw [hmin]; exact hm4)]

theorem scan_pieces {t : UInt8} (ht : hidOf t = 31) (tl : Bytes) (htl : 3 ≤ tl.length) (bs : List (UInt8 × Bytes)) (hok : ∀ b ∈ bs, BlockOk b) :
    ∀ (cs : List Bytes) (done todo : List (UInt8 × Bytes)) (s : Scan) (read : Bytes), bs = done ++ todo → s.stop = false → s.out = done.map tagB →
      AtB s todo (t :: tl) cs.flatten → read ++ cs.flatten = encBlocks bs ++ t :: tl → (∀ a b, cs = a ++ b → CutAt bs (read ++ a.flatten).length) →
      ∃ s', scanChunks (fullCfg fun _ _ => .next) cs s = some s' ∧ s'.out = bs.map tagB := by
  intro cs
  induction cs with
  | nil =>
    intro done todo s read h1 h2 h3 h4 h5 h6
    exfalso
    cases h4 with
    | head hl hz hm hlt =>
      have := congrArg List.length hm
      simp only [List.flatten_nil, List.append_nil, List.length_append, List.length_cons] at this
      omega
    | body b u hu hl hz hh hn hm hr hlt =>
      have := congrArg List.length hm
      simp only [List.flatten_nil, List.append_nil, List.length_append, List.length_cons] at this
      omega
  | cons ch cs ih =>
    intro done todo s read h1 h2 h3 h4 h5 h6
    have h6' : ∀ a b, cs = a ++ b → CutAt bs ((read ++ ch) ++ a.flatten).length := by
      intro a b hab
      have := h6 (ch :: a) b (by rw [hab]; rfl)
      simpa [List.append_assoc] using this
    have h5' : (read ++ ch) ++ cs.flatten = encBlocks bs ++ t :: tl := by
      rw [← h5]; simp [List.append_assoc]
    have hcut : CutAt bs (read ++ ch).length := by simpa using h6' [] cs rfl
    have hread : (read ++ ch).length + cs.flatten.length = (encBlocks bs ++ t :: tl).length := by rw [← h5', ← List.length_append]
    have hwhole : (encBlocks bs ++ t :: tl).length = (encBlocks done).length + (encBlocks todo ++ t :: tl).length := by
      rw [h1, encBlocks_append]; simp only [List.length_append]; omega
    have key : ∀ (done2 todo2 : List (UInt8 × Bytes)) (s2 : Scan), bs = done2 ++ todo2 → s2.out = done2.map tagB → s2.lineEnd = true → s2.size = 0 → s2.stop = false →
        s2.mem ++ cs.flatten = encBlocks todo2 ++ t :: tl → (read ++ ch).length = (encBlocks done2).length + s2.mem.length →
        ∃ s', (match scanInner (fullCfg fun _ _ => .next) s2 with
          | none => none
          | some s' => if s'.stop then some s' else scanChunks (fullCfg fun _ _ => .next) cs s') = some s' ∧ s'.out = bs.map tagB := by
      intro done2 todo2 s2 e1 e2 e3 e4 e5 e6 e7
      rw [e7, e1] at hcut
      obtain ⟨s', g1, d, todo', g2, g3, g4⟩ := scan_head ht tl todo2 (fun b hb => hok b (by rw [e1]; simp [hb])) s2 cs.flatten e3 e4 e5 e6 hcut.tail
      rw [g1]
      rcases g4 with ⟨g4, g5⟩ | ⟨g4, g5⟩
      · simp only [g4, if_true]
        refine ⟨s', rfl, ?_⟩
        rw [g3, e2, e1, g2, g5, List.append_nil, List.map_append]
      · simp only [g4, Bool.false_eq_true, if_false]
        exact ih (done2 ++ d) todo' s' (read ++ ch) (by rw [e1, g2]; simp) g4 (by rw [g3, e2]; simp) g5 h5' h6'
    unfold scanChunks
    cases h4 with
    | head hl hz hm hlt =>
      have hm' : (s.mem ++ ch) ++ cs.flatten = encBlocks todo ++ t :: tl := by rw [← hm]; simp [List.append_assoc]
      rw [if_neg (by omega)]
      refine key done todo { s with mem := s.mem ++ ch } h1 h3 hl hz h2 hm' ?_
      have : (s.mem ++ ch).length + cs.flatten.length = (encBlocks todo ++ t :: tl).length := by rw [← hm', ← List.length_append]
      simp only
      omega
    | body b u hu hl hz hh hn hm hr hlt =>
      have hm' : (s.mem ++ ch) ++ cs.flatten = b.2 ++ (encBlocks u ++ t :: tl) := by rw [← hm]; simp [List.append_assoc]
      by_cases hsz : (s.mem ++ ch).length < s.size
      · rw [if_pos hsz]
        exact ih done todo { s with mem := s.mem ++ ch } (read ++ ch) h1 h2 h3
          (.body b u hu hl hz hh hn hm' hr (.inl (by rw [← hz]; exact hsz))) h5' h6'
      · rw [if_neg hsz]
        by_cases hmin : 4 ≤ (s.mem ++ ch).length
        · obtain ⟨e, he1, he2⟩ := append_split hm' (by omega)
          have hbs : bs = (done ++ [b]) ++ u := by rw [h1, hu]; simp
          have hact : (fullCfg fun _ _ => .next).act b.1 b.2 = .next := by
            show (if hidOf b.1 = hidNone then Act.bad else .next) = _
            rw [if_neg (by simpa [hidNone] using (hok b (by rw [hbs]; simp)).1)]
          have hstep : scanInner (fullCfg fun _ _ => .next) { s with mem := s.mem ++ ch } =
              scanInner (fullCfg fun _ _ => .next) { s with mem := e, size := 0, lineEnd := true, out := s.out ++ [tagB b] } := by
            rw [scanInner, if_pos (show (fullCfg fun _ _ => .next).min ≤ (s.mem ++ ch).length from hmin), if_neg (by simp [hl])]
            simp only [hh, hz, he1, List.take_left, List.drop_left, hact, hn]
            rfl
          rw [hstep]
          refine key (done ++ [b]) u { s with mem := e, size := 0, lineEnd := true, out := s.out ++ [tagB b] } hbs (by simp only [h3, List.map_append, List.map_cons, List.map_nil]) rfl rfl h2 he2 ?_
          have a1 : (s.mem ++ ch).length + cs.flatten.length = b.2.length + (encBlocks u ++ t :: tl).length := by rw [← List.length_append, hm', List.length_append]
          have a2 : (encBlocks todo ++ t :: tl).length = recLen b.2 + (encBlocks u ++ t :: tl).length := by
            rw [hu, encBlocks_cons]; simp only [List.length_append, encRec_length]; omega
          have a3 : (encBlocks (done ++ [b])).length = (encBlocks done).length + recLen b.2 := by
            rw [encBlocks_append, List.length_append]; simp [encBlocks, encRec_length]
          have a4 : (s.mem ++ ch).length = b.2.length + e.length := by rw [he1, List.length_append]
          simp only
          omega
        · have : scanInner (fullCfg fun _ _ => .next) { s with mem := s.mem ++ ch } = some { s with mem := s.mem ++ ch } := by
            rw [scanInner, if_neg (show ¬ (fullCfg fun _ _ => .next).min ≤ (s.mem ++ ch).length from hmin)]
          rw [this]
          show ∃ s', (if s.stop = true then _ else _) = some s' ∧ _
          rw [if_neg (by rw [h2]; simp)]
          exact ih done todo { s with mem := s.mem ++ ch } (read ++ ch) h1 h2 h3
            (.body b u hu hl hz hh hn hm' hr (.inr (by simp only; omega))) h5' h6'

/-- A file of whole blocks with its tail gives the blocks, however reading it is cut, unless in a size field. -/
theorem readFull_pieces (bs : List (UInt8 × Bytes)) (hok : ∀ b ∈ bs, BlockOk b) (t : UInt8) (ht : hidOf t = 31) (tl : Bytes) (htl : 3 ≤ tl.length) (cs : List Bytes)
    (hcs : cs.flatten = encBlocks bs ++ t :: tl) (hcut : ∀ a b, cs = a ++ b → CutAt bs a.flatten.length) : readFull (fun _ _ => .next) cs = some bs := by
  obtain ⟨s', h1, h2⟩ := scan_pieces ht tl htl bs hok cs [] bs {} [] rfl rfl rfl (.head rfl rfl (by show [] ++ cs.flatten = _; rw [List.nil_append, hcs]) (by show (0 : Nat) < 4; omega))
    (by rw [List.nil_append, hcs]) (by intro a b h; simpa using hcut a b h)
  unfold readFull
  rw [h1, Option.map_some, h2]
  congr 1
  rw [List.map_map]
  exact List.map_id' bs

/-- The cuts made by reading pieces of the same size. -/
theorem chunks_cut (k : Nat) : ∀ (n : Nat) (d : Bytes), d.length ≤ n → (chunksOf k d).flatten = d ∧ ∀ a b, chunksOf k d = a ++ b → (∃ m, a.flatten.length = m * (k + 1)) ∨ a.flatten = d := by
  intro n
  induction n with
  | zero =>
    intro d hd
    have : d = [] := List.length_eq_zero_iff.1 (by omega)
    subst this
    rw [chunksOf, dif_pos rfl]
    refine ⟨rfl, fun a b h => ?_⟩
    have := (List.append_eq_nil_iff.1 h.symm).1
    rw [this]; exact .inr rfl
  | succ n ih =>
    intro d hd
    rw [chunksOf]
    split
    · rename_i h
      subst h
      refine ⟨rfl, fun a b h => ?_⟩
      have := (List.append_eq_nil_iff.1 h.symm).1
      rw [this]; exact .inr rfl
    · rename_i h
      have hpos := List.length_pos_iff.2 h
      obtain ⟨h1, h2⟩ := ih (d.drop (k + 1)) (by rw [List.length_drop]; omega)
      refine ⟨by rw [List.flatten_cons, h1, List.take_append_drop], fun a b hab => ?_⟩
      cases a with
      | nil => exact .inl ⟨0, by simp⟩
      | cons c a =>
        rw [List.cons_append, List.cons.injEq] at hab
        obtain ⟨rfl, hab⟩ := hab
        rw [List.flatten_cons]
        rcases h2 a b hab with ⟨m, hm⟩ | hm
        · by_cases hl : k + 1 ≤ d.length
          · refine .inl ⟨m + 1, ?_⟩
            rw [List.length_append, hm, List.length_take, Nat.min_eq_left hl, Nat.add_mul]
            omega
          · have hdr : d.drop (k + 1) = [] := List.drop_eq_nil_of_le (by omega)
            rw [hdr, chunksOf, dif_pos rfl] at hab
            have := (List.append_eq_nil_iff.1 hab.symm).1
            rw [this, List.flatten_nil, List.append_nil]
            exact .inr (List.take_of_length_le (by omega))
        · exact .inr (by rw [hm, List.take_append_drop])

/-- A beginning of a file. -/
theorem Smooth.prefix {f g : Bytes} (h : Smooth (f ++ g)) : Smooth f := by
  intro before b rest he hb
  exact h before b (rest ++ g) (by rw [he, List.append_assoc]) hb

theorem Readable.prefix {f g : Bytes} (h : Readable (f ++ g)) : Readable f :=
  ⟨by have := h.len; rw [List.length_append] at this; omega, h.cut.prefix⟩

/-- A small file is read in one piece. -/
theorem smooth_small {f : Bytes} (h : f.length ≤ 16 * 1024 * 1024) : Smooth f := by
  intro before b rest he hb n hn
  have hl := congrArg List.length he
  rw [List.length_append, List.length_append, encRec_length, recLen, hdrLen] at hl
  cases n with
  | zero => omega
  | succ n => rw [Nat.add_mul] at *; omega

theorem readable_small {f : Bytes} (h : f.length ≤ 16 * 1024 * 1024) : Readable f := ⟨by omega, smooth_small h⟩

/-- Two blocks at the same place are the same. -/
theorem encRec_inj {b c : UInt8 × Bytes} {x y : Bytes} (hb : b.2.length < 2 ^ 64) (hc : c.2.length < 2 ^ 64) (h : encRec b.1 b.2 ++ x = encRec c.1 c.2 ++ y) : b = c ∧ x = y := by
  simp only [encRec, List.cons_append, List.cons.injEq, List.append_assoc] at h
  obtain ⟨h1, h2⟩ := h
  have e1 := C01_ssize_roundtrip b.2.length hb (b.2 ++ x)
  have e2 := C01_ssize_roundtrip c.2.length hc (c.2 ++ y)
  rw [h2, e2] at e1
  simp only [Option.some.injEq, Prod.mk.injEq] at e1
  obtain ⟨e3, e4⟩ := e1
  have := List.append_inj e4 e3
  exact ⟨Prod.ext h1 this.1.symm, this.2.symm⟩

/-- A file of whole blocks with its tail gives the blocks, read in pieces of 16 MB, if no piece ends in a size field. -/
theorem readFull_smooth (bs : List (UInt8 × Bytes)) (hok : ∀ b ∈ bs, hidOf b.1 ≠ 0 ∧ hidOf b.1 ≠ 31 ∧ b.2.length < 2 ^ 64) (t : UInt8) (ht : hidOf t = 31)
    (tl : Bytes) (htl : 3 ≤ tl.length) (hs : Smooth (bs.flatMap fun b => encRec b.1 b.2)) :
    readFull (fun _ _ => .next) (chunksOf (readSize - 1) (bs.flatMap (fun b => encRec b.1 b.2) ++ t :: tl)) = some bs := by
  obtain ⟨h1, h2⟩ := chunks_cut (readSize - 1) _ (bs.flatMap (fun b => encRec b.1 b.2) ++ t :: tl) (Nat.le_refl _)
  refine readFull_pieces bs hok t ht tl htl _ h1 fun a b hab pre x post he hq => ?_
  have hx := hok x (by rw [he]; simp)
  have hpre : encBlocks bs = encBlocks pre ++ encRec x.1 x.2 ++ encBlocks post := by rw [he, encBlocks_append, encBlocks_cons, List.append_assoc]
  rcases h2 a b hab with ⟨m, hm⟩ | hm
  · have e : readSize - 1 + 1 = 16 * 1024 * 1024 := by decide
    rw [e] at hm
    have := hs pre x (encBlocks post) hpre (fun y hy => (hok y (by rw [he]; rcases List.mem_append.1 hy with hy | hy <;> simp_all)).2.2) m (by rw [← hm]; exact hq)
    rw [hm]
    unfold hdrLen
    unfold encBlocks
    omega
  · rw [hm]
    have : (encBlocks bs).length = (encBlocks pre).length + (encRec x.1 x.2).length + (encBlocks post).length := by rw [hpre]; simp only [List.length_append]
    rw [List.length_append, encRec_length, recLen] at *
    show _ ≤ (encBlocks bs).length + _
    omega

/-- The blocks of a file are what they are. -/
theorem block_mem : ∀ (bs before : List (UInt8 × Bytes)) (b : UInt8 × Bytes) (rest : Bytes), (∀ x ∈ bs, x.2.length < 2 ^ 64) → (∀ x ∈ before ++ [b], x.2.length < 2 ^ 64) →
    encBlocks bs = encBlocks before ++ encRec b.1 b.2 ++ rest → b ∈ bs := by
  intro bs
  induction bs with
  | nil =>
    intro before b rest _ _ h
    have := congrArg List.length h
    simp [encBlocks, encRec] at this
  | cons c bs ih =>
    intro before b rest h1 h2 h
    rw [encBlocks_cons] at h
    cases before with
    | nil =>
      rw [show encBlocks [] = [] from rfl, List.nil_append] at h
      have := (encRec_inj (h1 c (by simp)) (h2 b (by simp)) h).1
      rw [this]; simp
    | cons d before =>
      rw [encBlocks_cons, List.append_assoc, List.append_assoc] at h
      have := (encRec_inj (h1 c (by simp)) (h2 d (by simp)) h).2
      exact List.mem_cons_of_mem _ (ih before b rest (fun x hx => h1 x (by simp [hx])) (fun x hx => h2 x (by rw [List.cons_append]; exact List.mem_cons_of_mem _ hx)) (by rw [this, List.append_assoc]))

/-- Blocks of less than 64 KB have short size fields. -/
theorem smooth_short (bs : List (UInt8 × Bytes)) (h : ∀ b ∈ bs, b.2.length < 65536) : Smooth (bs.flatMap fun b => encRec b.1 b.2) := by
  intro before b rest he hb n hn
  have hm := block_mem bs before b rest (fun x hx => by have := h x hx; omega) hb he
  have hl : (catSsize b.2.length).length ≤ 3 := by
    have := h b hm
    unfold catSsize
    rw [if_neg (by omega), if_neg (by omega)]
    split
    · simp [catByte]
    · split <;> simp [catByte]
  omega

end Sis.Disk
