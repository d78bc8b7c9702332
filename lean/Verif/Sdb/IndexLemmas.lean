import Verif.Sdb.BlockLemmas
/- Lemmas on the index of a data file. -/
namespace Sis.Sdb
open Sis Sis.Disk
open Sis.Dyn (sameN getN setN Db sameN_iff sameN_refl getN_none getN_some setN_spec getN_congr)

theorem catSsize_pos (n : Nat) : 1 ≤ (catSsize n).length := by
  rw [C01_ssize_length]; unfold catSsizeRet
  repeat' split
  all_goals omega

theorem getByte1 (v : Nat) (rest : Bytes) (h : v < 256) : getByte 1 (catByte v 1 ++ rest) = some (v, rest) := by
  rw [getByte_catByte (.inl rfl)]
  simp only [Nat.pow_one]
  rw [Nat.mod_eq_of_lt h]

/-- The numbers of a block fit their places. -/
structure InRange (u : IUnit) : Prop where
  active : u.active < 256
  ktype : u.ktype < 256
  sdict : u.sdict < 256
  fidx : u.fidx < 2 ^ 16
  offset : u.offset < 2 ^ 64
  size : u.size < 2 ^ 64
  start : u.start < 2 ^ 64
  stop : u.stop < 2 ^ 64

def bare (u : IUnit) : IUnit := { fidx := u.fidx, offset := u.offset, size := u.size }

theorem decRefs_enc (us : List IUnit) (h : ∀ u ∈ us, InRange u) (rest : Bytes) :
    decRefs us.length (us.flatMap encRef ++ rest) = some (us.map bare, rest) := by
  induction us with
  | nil => rfl
  | cons u us ih =>
    have hu := h u (by simp)
    have h16 := hu.fidx
    simp only [List.length_cons, List.flatMap_cons, encRef, List.append_assoc, decRefs, List.map_cons]
    rw [C01_ssize_roundtrip _ (by omega)]
    simp only [Option.bind_some]
    rw [C01_ssize_roundtrip _ hu.offset]
    simp only [Option.bind_some]
    rw [C01_ssize_roundtrip _ hu.size]
    simp only [Option.bind_some]
    rw [ih fun u hu => h u (by simp [hu])]
    simp only [Option.map_some, bare]
    rw [Nat.mod_eq_of_lt h16]

theorem wrap {a b g : Nat} (ha : a < 2 ^ 64) (hb : b < 2 ^ 64) (h : gap a b = g) : g < 2 ^ 64 ∧ after a g = b := by
  unfold gap at h; unfold after; omega

theorem decUnit_enc (u : IUnit) (hu : InRange u) (rest : Bytes) : decUnit (encUnit u ++ rest) = some (u, rest) := by
  have h16 := hu.fidx
  unfold encUnit
  generalize hg : gap u.start u.stop = g
  obtain ⟨hg1, hg2⟩ := wrap hu.start hu.stop hg
  clear hg
  simp only [List.append_assoc]
  unfold decUnit
  refine Option.bind_eq_some_iff.2 ⟨_, getByte1 _ _ hu.active, ?_⟩
  refine Option.bind_eq_some_iff.2 ⟨_, getByte1 _ _ hu.ktype, ?_⟩
  refine Option.bind_eq_some_iff.2 ⟨_, getByte1 _ _ hu.sdict, ?_⟩
  refine Option.bind_eq_some_iff.2 ⟨_, C01_ssize_roundtrip _ (by omega) _, ?_⟩
  refine Option.bind_eq_some_iff.2 ⟨_, C01_ssize_roundtrip _ hu.offset _, ?_⟩
  refine Option.bind_eq_some_iff.2 ⟨_, C01_ssize_roundtrip _ hu.size _, ?_⟩
  refine Option.bind_eq_some_iff.2 ⟨_, C01_ssize_roundtrip _ hu.start _, ?_⟩
  refine Option.map_eq_some_iff.2 ⟨_, C01_ssize_roundtrip _ hg1 _, ?_⟩
  simp only [hg2]
  rw [Nat.mod_eq_of_lt h16]

theorem decUnits_enc (us : List IUnit) (h : ∀ u ∈ us, InRange u) (rest : Bytes) :
    decUnits us.length (us.flatMap encUnit ++ rest) = some (us, rest) := by
  induction us with
  | nil => rfl
  | cons u us ih =>
    simp only [List.length_cons, List.flatMap_cons, List.append_assoc, decUnits]
    refine Option.bind_eq_some_iff.2 ⟨_, decUnit_enc u (h u (by simp)) _, ?_⟩
    exact Option.map_eq_some_iff.2 ⟨_, ih fun u hu => h u (by simp [hu]), rfl⟩

/-- What is asked of an entry of an index, given the dictionaries of the file. -/
structure EntryOk (kd : List Bytes) (sd : TDict) (e : Bytes × Node) (k : Bytes) (s : Option Bytes) : Prop where
  name : e.1 = nodeName k s
  kname : e.2.kname = some k
  sname : e.2.sname = s
  short : e.1.length ≤ 254
  key : ∃ i, getKey kd k = some (k, i)
  tab : ∀ t, s = some t → t ≠ [] ∧ ∃ dbs, sd.find? (fun x => sameN t x.1) = some (t, dbs)
  count : e.2.units.length < 2 ^ 31
  units : ∀ u ∈ e.2.units, InRange u

/-- The bytes of a node. -/
def nodeBytes (n : Node) : Bytes :=
  catSsize (n.kname.getD []).length ++ n.kname.getD [] ++ (match n.sname with
        | some s => catSsize s.length ++ s
        | none => catSsize 0) ++ catSsize n.units.length ++ n.units.flatMap encUnit

theorem encNode_eq {lib : Lib} (ht : lib.trace = false) {n : Node} (hk : n.kname ≠ none) : encNode lib n = some (nodeBytes n) := by
  obtain ⟨k, hk⟩ := Option.ne_none_iff_exists'.1 hk
  unfold encNode nodeBytes
  rw [hk]
  simp only [ht, Bool.false_eq_true, false_and, if_false, Option.getD_some]
  cases n.sname <;> rfl

theorem decNode_enc {lib : Lib} (ht : lib.trace = false) {r : Rd} {e : Bytes × Node} {k : Bytes} {s : Option Bytes} (h : EntryOk r.kd r.sd e k s)
    (rest : Bytes) : decNode lib r (nodeBytes e.2 ++ rest) = some ({ r with idx := (setN r.idx e.1 e.2).1 }, rest) := by
  obtain ⟨i, hi⟩ := h.key
  have hshort := h.short
  rw [h.name] at hshort
  have hkl : k.length < 2 ^ 31 := by
    cases s <;> simp [nodeName] at hshort <;> omega
  have hasc : ∀ n, n < 2 ^ 31 → asCount n = n := by
    intro n hn; unfold asCount; rw [Nat.mod_eq_of_lt (by omega), if_pos hn]
  unfold nodeBytes
  rw [h.kname, h.sname]
  simp only [Option.getD_some]
  unfold decNode
  simp only [List.append_assoc]
  rw [C01_ssize_roundtrip _ (by omega)]
  simp only [Option.bind_some]
  rw [if_pos (by omega), hasc _ hkl, takeBytes_append]
  simp only [Option.bind_some]
  cases s with
  | none =>
    simp only [List.append_assoc]
    rw [C01_ssize_roundtrip _ (by omega)]
    simp only [Option.bind_some]
    rw [hasc 0 (by omega)]
    rw [show ∀ m : Bytes, takeBytes 0 m = some ([], m) from fun m => takeBytes_append [] m]
    simp only [Option.bind_some, hi, if_true]
    rw [C01_ssize_roundtrip _ (by have := h.count; omega)]
    simp only [Option.bind_some]
    rw [hasc _ h.count, decUnits_enc _ h.units]
    simp only [Option.bind_some, ht]
    have hn : shortName k none = e.1 := by
      unfold shortName; rw [List.take_of_length_le hshort, h.name]
    rw [hn]
    have he : (⟨some k, none, e.2.units⟩ : Node) = e.2 := by rw [← h.kname, ← h.sname]
    rw [he]
    simp
  | some t =>
    obtain ⟨h1, dbs, h2⟩ := h.tab t rfl
    have htl : t.length < 2 ^ 31 := by simp [nodeName] at hshort; omega
    simp only [List.append_assoc]
    rw [C01_ssize_roundtrip _ (by omega)]
    simp only [Option.bind_some]
    rw [hasc _ htl, takeBytes_append]
    simp only [Option.bind_some, hi]
    rw [C01_ssize_roundtrip _ (by have := h.count; omega)]
    simp only [Option.bind_some]
    rw [hasc _ h.count, decUnits_enc _ h.units]
    simp only [Option.bind_some, ht, h1, if_false, h2, Option.map_some]
    have hn : shortName k (some t) = e.1 := by
      unfold shortName; rw [List.take_of_length_le hshort, h.name]
    rw [hn]
    have he : (⟨some k, some t, e.2.units⟩ : Node) = e.2 := by rw [← h.kname, ← h.sname]
    rw [he]
    simp

theorem nodeBytes_pos (n : Node) : 1 ≤ (nodeBytes n).length := by
  unfold nodeBytes
  have := catSsize_pos (n.kname.getD []).length
  simp only [List.length_append]
  omega

theorem nodeBytes_units (n : Node) : n.units.length ≤ (nodeBytes n).length := by
  have : ∀ us : List IUnit, us.length ≤ (us.flatMap encUnit).length := by
    intro us
    induction us with
    | nil => simp
    | cons u us ih =>
      simp only [List.length_cons, List.flatMap_cons, List.length_append]
      have : 1 ≤ (encUnit u).length := by
        unfold encUnit
        have := catSsize_pos u.fidx
        simp only [List.length_append]
        omega
      omega
  unfold nodeBytes
  have := this n.units
  simp only [List.length_append]
  omega

/-- The entries put back one after the other. -/
def putAll (idx : Idx) (es : List (Bytes × Node)) : Idx := es.foldl (fun l e => (setN l e.1 e.2).1) idx

def Entries (kd : List Bytes) (sd : TDict) (es : List (Bytes × Node)) : Prop := ∀ e ∈ es, ∃ k s, EntryOk kd sd e k s

theorem decNodes_enc {lib : Lib} (ht : lib.trace = false) (es : List (Bytes × Node)) : ∀ (r : Rd) (f : Nat), Entries r.kd r.sd es →
    (es.flatMap fun e => nodeBytes e.2).length ≤ f →
    decNodes lib f r (es.flatMap fun e => nodeBytes e.2) = some { r with idx := putAll r.idx es } := by
  induction es with
  | nil => intro r f _ _; cases f <;> simp [decNodes, putAll]
  | cons e es ih =>
    intro r f h hf
    obtain ⟨k, s, he⟩ := h e (by simp)
    have hp := nodeBytes_pos e.2
    simp only [List.flatMap_cons, List.length_append] at hf
    cases f with
    | zero => omega
    | succ f =>
      simp only [List.flatMap_cons, decNodes]
      rw [if_neg (by intro h; have := congrArg List.length h; simp at this; simp [this.1] at hp), decNode_enc ht he]
      simp only [Option.bind_some]
      exact ih { r with idx := (setN r.idx e.1 e.2).1 } f (fun e' he' => h e' (by simp [he'])) (by omega)

theorem encPages_spec {lib : Lib} (ht : lib.trace = false) (es : List (Bytes × Node)) : ∀ (pend : List (Bytes × Node)),
    (∀ e ∈ es, e.2.kname ≠ none) →
    ∃ ps, encPages lib (pend.flatMap fun e => nodeBytes e.2) (es.map (·.2)) = some ps ∧
      ps.flatten = (pend ++ es).flatMap (fun e => nodeBytes e.2) ∧
      ∀ (body : Bytes) (r : Rd), Entries r.kd r.sd (pend ++ es) →
        decIdx lib body r (ps.map fun p => (headByte 1 0 hidIdxMsg, p)) = some { r with idx := putAll r.idx (pend ++ es) } := by
  have hblk : ∀ (body : Bytes) (r : Rd) (es : List (Bytes × Node)), Entries r.kd r.sd es →
      decBlock lib body r (headByte 1 0 hidIdxMsg, es.flatMap fun e => nodeBytes e.2) = some { r with idx := putAll r.idx es } := by
    intro body r es h
    unfold decBlock
    simp only [hidOf_head (show (0 : Nat) ≤ 1 by omega) (show hidIdxMsg < 32 by decide)]
    rw [if_neg (by decide), if_neg (by decide), if_pos trivial]
    exact decNodes_enc ht es r _ h (Nat.le_refl _)
  induction es with
  | nil =>
    intro pend _
    simp only [List.map_nil, encPages, List.append_nil]
    by_cases hp : (pend.flatMap fun e => nodeBytes e.2) = []
    · rw [if_pos hp]
      refine ⟨[], rfl, by rw [hp]; rfl, ?_⟩
      intro body r h
      have : pend = [] := by
        cases pend with
        | nil => rfl
        | cons e l =>
          have h1 := congrArg List.length hp
          have h2 := nodeBytes_pos e.2
          simp at h1
          simp [h1.1] at h2
      rw [this]
      simp [decIdx, putAll]
    · rw [if_neg hp]
      refine ⟨_, rfl, by simp, ?_⟩
      intro body r h
      simp only [List.map_cons, List.map_nil, decIdx]
      rw [hblk _ _ _ h]
      rfl
  | cons e es ih =>
    intro pend hk
    simp only [List.map_cons, encPages]
    rw [encNode_eq ht (hk e (by simp))]
    simp only [Option.bind_some]
    have hpe : (pend.flatMap fun e => nodeBytes e.2) ++ nodeBytes e.2 = ((pend ++ [e]).flatMap fun e => nodeBytes e.2) := by simp
    split
    · obtain ⟨ps, h1, h2, h3⟩ := ih [] fun e he => hk e (by simp [he])
      simp only [List.flatMap_nil] at h1
      rw [h1]
      refine ⟨_, rfl, ?_, ?_⟩
      · rw [List.flatten_cons, h2]; simp
      · intro body r h
        simp only [List.map_cons, decIdx]
        rw [hpe, hblk body r (pend ++ [e]) (fun x hx => h x (by simp at hx ⊢; grind))]
        simp only [Option.bind_some]
        rw [h3 body { r with idx := putAll r.idx (pend ++ [e]) } (fun x hx => h x (by simp at hx ⊢; grind))]
        simp [putAll, List.foldl_append]
    · rw [hpe]
      obtain ⟨ps, h1, h2, h3⟩ := ih (pend ++ [e]) fun e he => hk e (by simp [he])
      exact ⟨ps, h1, by rw [h2]; simp, fun body r h => by rw [h3 body r (by simpa using h)]; simp⟩

/-- Entries with names that differ are put at the end. -/
theorem putAll_append (es : List (Bytes × Node)) : ∀ idx : Idx,
    (idx ++ es).Pairwise (fun a b => sameN a.1 b.1 = false) → putAll idx es = idx ++ es := by
  induction es with
  | nil => intro idx _; simp [putAll]
  | cons e es ih =>
    intro idx h
    have h1 : getN idx e.1 = none := by
      rw [getN_none]
      intro x hx
      have := (List.pairwise_append.1 h).2.2 x hx e (by simp)
      cases hs : sameN e.1 x.1 with
      | false => rfl
      | true => rw [sameN_iff] at hs; rw [← Bool.not_eq_true, sameN_iff] at this; exact absurd hs.symm this
    have h2 : (setN idx e.1 e.2).1 = idx ++ [e] := by
      rcases setN_spec idx e.1 e.2 with ⟨_, h2⟩ | ⟨_, _, _, _, h3, _⟩
      · rw [h2]
      · rw [h1] at h3; cases h3
    show putAll (setN idx e.1 e.2).1 es = _
    rw [h2, ih _ (by simpa using h)]
    simp

/-- A list of dictionary blocks of an index that is read. -/
theorem decDict_enc (lib : Lib) (body : Bytes) (keys : Bool) (us : List IUnit) (h : ∀ u ∈ us, InRange u) (hc : us.length < 2 ^ 31) (r : Rd) :
    decDict lib body keys (encRefs us).length r (encRefs us) =
      if keys then (readKeys lib body r.kd (us.map bare)).map fun kd => { r with kd := kd, idx := (setN r.idx signKeys ⟨none, none, us.map bare⟩).1 }
      else (readTabs lib body r.sd (us.map bare)).map fun sd => { r with sd := sd, idx := (setN r.idx signTabs ⟨none, none, us.map bare⟩).1 } := by
  have hp : 1 ≤ (encRefs us).length := by
    unfold encRefs; have := catSsize_pos us.length; simp only [List.length_append]; omega
  obtain ⟨f, hf⟩ : ∃ f, (encRefs us).length = f + 1 := ⟨(encRefs us).length - 1, by omega⟩
  rw [hf, decDict]
  rw [if_neg (by intro h; rw [h] at hp; simp at hp)]
  have e1 : getSsize (encRefs us) = some (us.length, us.flatMap encRef) := C01_ssize_roundtrip _ (by omega) _
  have e2 : decRefs us.length (us.flatMap encRef) = some (us.map bare, []) := by
    have := decRefs_enc us h []
    simpa using this
  rw [e1]
  simp only [Option.bind_some]
  rw [show asCount us.length = us.length by unfold asCount; rw [Nat.mod_eq_of_lt (by omega), if_pos hc], e2]
  simp only [Option.bind_some]
  have hend : ∀ r : Rd, decDict lib body keys f r [] = some r := by
    intro r; cases f <;> simp [decDict]
  cases keys with
  | true =>
    simp only [if_true]
    cases readKeys lib body r.kd (us.map bare) <;> simp [hend]
  | false =>
    simp only [Bool.false_eq_true, if_false]
    cases readTabs lib body r.sd (us.map bare) <;> simp [hend]

theorem readKeys_bare (lib : Lib) (body : Bytes) (us : List IUnit) : ∀ kd, readKeys lib body kd (us.map bare) = readKeys lib body kd us := by
  induction us with
  | nil => intro kd; rfl
  | cons u us ih => intro kd; simp only [List.map_cons, readKeys, bare] at *; simp only [ih]

theorem readTabs_bare (lib : Lib) (body : Bytes) (us : List IUnit) : ∀ sd, readTabs lib body sd (us.map bare) = readTabs lib body sd us := by
  induction us with
  | nil => intro kd; rfl
  | cons u us ih => intro kd; simp only [List.map_cons, readTabs, bare] at *; simp only [ih]

/-- The blocks of a dictionary that an index names. -/
def dictUnits (idx : Idx) (sign : Bytes) : List IUnit := ((getN idx sign).map (·.units)).getD []

def dictNode (idx : Idx) (sign : Bytes) : Idx := ((getN idx sign).map fun n => (sign, (⟨none, none, n.units.map bare⟩ : Node))).toList

/-- The entries of an index that are data. -/
def data (idx : Idx) : Idx := idx.filter fun e => !sameN signKeys e.1 && !sameN signTabs e.1

/-- An index that can be written and read back, with the dictionaries that are in the file. -/
structure IdxOk (lib : Lib) (body : Bytes) (kd : List Bytes) (sd : TDict) (idx : Idx) : Prop where
  diff : idx.Pairwise fun a b => sameN a.1 b.1 = false
  ents : Entries kd sd (data idx)
  keys : readKeys lib body [] (dictUnits idx signKeys) = some kd
  tabs : readTabs lib body [] (dictUnits idx signTabs) = some sd
  kcount : (dictUnits idx signKeys).length < 2 ^ 31
  tcount : (dictUnits idx signTabs).length < 2 ^ 31
  kunits : ∀ u ∈ dictUnits idx signKeys, InRange u
  tunits : ∀ u ∈ dictUnits idx signTabs, InRange u

theorem sameN_comm (a b : Bytes) : sameN a b = sameN b a := by
  unfold sameN; exact Bool.beq_comm

/-- The index as blocks and back. -/
theorem idx_back {lib : Lib} (ht : lib.trace = false) {body : Bytes} {kd : List Bytes} {sd : TDict} {idx : Idx} (h : IdxOk lib body kd sd idx) :
    ∃ bs, encIdx lib idx = some bs ∧
      decIdx lib body ⟨[], [], []⟩ bs = some ⟨kd, sd, dictNode idx signKeys ++ dictNode idx signTabs ++ data idx⟩ ∧
      ∀ b ∈ bs, hidOf b.1 ≠ 0 ∧ hidOf b.1 ≠ 31 := by
  obtain ⟨ps, p1, p2, p3⟩ := encPages_spec ht (data idx) [] fun e he => by
    obtain ⟨k, s, hes⟩ := h.ents e he
    rw [hes.kname]; simp
  simp only [List.flatMap_nil, List.nil_append] at p1 p3
  unfold encIdx
  have hd : (idx.filter fun e => !sameN signKeys e.1 && !sameN signTabs e.1).map (·.2) = (data idx).map (·.2) := rfl
  simp only [hd, p1, Option.map_some]
  refine ⟨_, rfl, ?_, ?_⟩
  · have happ : ∀ (as bs : List (UInt8 × Bytes)) (r : Rd), decIdx lib body r (as ++ bs) = (decIdx lib body r as).bind fun r => decIdx lib body r bs := by
      intro as
      induction as with
      | nil => intro bs r; rfl
      | cons a as ih =>
        intro bs r
        simp only [List.cons_append, decIdx]
        cases decBlock lib body r a with
        | none => rfl
        | some r => simp only [Option.bind_some]; exact ih bs r
    have h1 : decIdx lib body ⟨[], [], []⟩ (match getN idx signKeys with
        | some n => [(headByte 1 0 hidIdxKeys, encRefs n.units)]
        | none => []) = some ⟨kd, [], dictNode idx signKeys⟩ := by
      have hk := h.keys
      have hc := h.kcount
      have hu := h.kunits
      unfold dictUnits at hk hc hu
      unfold dictNode
      cases hg : getN idx signKeys with
      | none => rw [hg] at hk; simp [readKeys] at hk; simp [decIdx, hk]
      | some n =>
        rw [hg] at hk hc hu
        simp only [Option.map_some, Option.getD_some] at hk hc hu
        simp only [decIdx, decBlock, hidOf_head (show (0 : Nat) ≤ 1 by omega) (show hidIdxKeys < 32 by decide), if_true]
        rw [decDict_enc lib body true n.units hu hc]
        simp only [if_true, readKeys_bare, hk, Option.map_some, Option.bind_some]
        rfl
    have h2 : decIdx lib body ⟨kd, [], dictNode idx signKeys⟩ (match getN idx signTabs with
        | some n => [(headByte 1 0 hidIdxTabs, encRefs n.units)]
        | none => []) = some ⟨kd, sd, dictNode idx signKeys ++ dictNode idx signTabs⟩ := by
      have hk := h.tabs
      have hc := h.tcount
      have hu := h.tunits
      unfold dictUnits at hk hc hu
      cases hg : getN idx signTabs with
      | none => rw [hg] at hk; simp [readTabs] at hk; simp [decIdx, hk, dictNode, hg]
      | some n =>
        rw [hg] at hk hc hu
        simp only [Option.map_some, Option.getD_some] at hk hc hu
        simp only [decIdx, decBlock, hidOf_head (show (0 : Nat) ≤ 1 by omega) (show hidIdxTabs < 32 by decide)]
        rw [if_neg (by decide), if_pos trivial, decDict_enc lib body false n.units hu hc]
        simp only [Bool.false_eq_true, if_false, readTabs_bare, hk, Option.map_some, Option.bind_some]
        congr 2
        unfold dictNode
        rw [hg]
        cases getN idx signKeys <;> rfl
    rw [happ, happ]
    refine Option.bind_eq_some_iff.2 ⟨_, Option.bind_eq_some_iff.2 ⟨_, h1, h2⟩, ?_⟩
    rw [p3 body ⟨kd, sd, dictNode idx signKeys ++ dictNode idx signTabs⟩ h.ents]
    simp only
    rw [putAll_append]
    have hin : ∀ sign x, x ∈ dictNode idx sign → x.1 = sign := by
      intro sign x hx
      unfold dictNode at hx
      cases hg : getN idx sign with
      | none => rw [hg] at hx; simp at hx
      | some n => rw [hg] at hx; simp at hx; rw [hx]
    have hone : ∀ sign, (dictNode idx sign).Pairwise fun a b => sameN a.1 b.1 = false := by
      intro sign
      unfold dictNode
      cases getN idx sign <;> simp
    have hdat : ∀ x ∈ data idx, sameN signKeys x.1 = false ∧ sameN signTabs x.1 = false := by
      intro x hx
      simpa [data] using (List.mem_filter.1 hx).2
    rw [List.pairwise_append, List.pairwise_append]
    refine ⟨⟨hone _, hone _, ?_⟩, h.diff.filter _, ?_⟩
    · intro a ha b hb
      rw [hin _ _ ha, hin _ _ hb]; decide
    · intro a ha b hb
      rcases List.mem_append.1 ha with ha | ha
      · rw [hin _ _ ha]; exact (hdat b hb).1
      · rw [hin _ _ ha]; exact (hdat b hb).2
  · intro b hb
    have k1 : ∀ h, h < 32 → hidOf (headByte 1 0 h) = h := fun h hh => hidOf_head (by omega) hh
    simp only [List.mem_append] at hb
    rcases hb with (hb | hb) | hb
    · split at hb
      · simp at hb; rw [hb]; simp only [k1 hidIdxKeys (by decide)]; decide
      · cases hb
    · split at hb
      · simp at hb; rw [hb]; simp only [k1 hidIdxTabs (by decide)]; decide
      · cases hb
    · obtain ⟨p, _, rfl⟩ := List.mem_map.1 hb
      simp only [k1 hidIdxMsg (by decide)]; decide

end Sis.Sdb
