import Verif.Sno.PageLemmas
import Verif.Sdb.FileLemmas
/- Lemmas on the index of a file of records in order. -/
namespace Sis.Sno
open Sis Sis.Disk Sis.Sdb
open Sis.Dyn (sameN getN setN Db sameN_iff sameN_refl getN_none getN_some setN_spec getN_congr)

theorem unzipIdx_packed {lib : Lib} (L : ZipOk lib) (z : Bool) {hid : Nat} (hh : hid < 32) (d : Bytes) :
    hidOf (packed lib z hid d).1 = hid ∧ unzipIdx lib (packed lib z hid d) = d := by
  unfold packed
  split
  · split
    · rename_i c hc
      refine ⟨hidOf_head (by omega) hh, ?_⟩
      unfold unzipIdx
      simp only [zipOf_head (show (1 : Nat) ≤ 1 by omega) hh]
      rw [if_neg (by decide), if_pos trivial, (L.back d c hc).2]
      rfl
    · refine ⟨hidOf_head (by omega) hh, ?_⟩
      unfold unzipIdx
      simp only [zipOf_head (show (0 : Nat) ≤ 1 by omega) hh]
      rw [if_pos trivial]
  · refine ⟨hidOf_head (by omega) hh, ?_⟩
    unfold unzipIdx
    simp only [zipOf_head (show (0 : Nat) ≤ 1 by omega) hh]
    rw [if_pos trivial]

theorem decUnit_enc (u : IUnit) (hu : InRange u) (hp : u.stop < 2 ^ 32) (rest : Bytes) : Sno.decUnit (Sno.encUnit u ++ rest) = some (u, rest) := by
  have h16 := hu.fidx
  unfold Sno.encUnit
  simp only [List.append_assoc]
  unfold Sno.decUnit
  refine Option.bind_eq_some_iff.2 ⟨_, getByte1 _ _ hu.active, ?_⟩
  refine Option.bind_eq_some_iff.2 ⟨_, getByte1 _ _ hu.ktype, ?_⟩
  refine Option.bind_eq_some_iff.2 ⟨_, getByte1 _ _ hu.sdict, ?_⟩
  refine Option.bind_eq_some_iff.2 ⟨_, C01_ssize_roundtrip _ (by omega) _, ?_⟩
  refine Option.bind_eq_some_iff.2 ⟨_, C01_ssize_roundtrip _ hu.offset _, ?_⟩
  refine Option.bind_eq_some_iff.2 ⟨_, C01_ssize_roundtrip _ hu.size _, ?_⟩
  refine Option.bind_eq_some_iff.2 ⟨_, C01_ssize_roundtrip _ hu.start _, ?_⟩
  refine Option.map_eq_some_iff.2 ⟨_, C01_ssize_roundtrip _ hu.stop _, ?_⟩
  simp only
  rw [Nat.mod_eq_of_lt h16, Nat.mod_eq_of_lt hp]

theorem decUnits_enc (us : List IUnit) (h : ∀ u ∈ us, InRange u ∧ u.stop < 2 ^ 32) (rest : Bytes) :
    Sno.decUnits us.length (us.flatMap Sno.encUnit ++ rest) = some (us, rest) := by
  induction us with
  | nil => rfl
  | cons u us ih =>
    simp only [List.length_cons, List.flatMap_cons, List.append_assoc, Sno.decUnits]
    refine Option.bind_eq_some_iff.2 ⟨_, decUnit_enc u (h u (by simp)).1 (h u (by simp)).2 _, ?_⟩
    exact Option.map_eq_some_iff.2 ⟨_, ih fun u hu => h u (by simp [hu]), rfl⟩

/-- The bytes of a node. -/
def nodeBytes (n : Node) : Bytes :=
  catSsize (n.kname.getD []).length ++ n.kname.getD [] ++ (match n.sname with
        | some s => catSsize s.length ++ s
        | none => catSsize 0) ++ catSsize n.units.length ++ n.units.flatMap Sno.encUnit

theorem encNode_eq {n : Node} (hk : n.kname ≠ none) : Sno.encNode n = some (Sno.nodeBytes n) := by
  obtain ⟨k, hk⟩ := Option.ne_none_iff_exists'.1 hk
  unfold Sno.encNode Sno.nodeBytes
  rw [hk]
  simp only [Option.map_some, Option.getD_some]
  cases n.sname <;> rfl

theorem nodeBytes_pos (n : Node) : 1 ≤ (Sno.nodeBytes n).length := by
  unfold Sno.nodeBytes
  have := catSsize_pos (n.kname.getD []).length
  simp only [List.length_append]
  omega

def topOf (t : Nat) (us : List IUnit) : Nat := us.foldl (fun t u => max t u.stop) t

def tops (t : Nat) (es : List (Bytes × Node)) : Nat := es.foldl (fun t e => topOf t e.2.units) t

theorem decNode_enc {r : Sno.Rd} {e : Bytes × Node} {k : Bytes} {s : Option Bytes} (h : EntryOk r.r.kd r.r.sd e k s) (hp : ∀ u ∈ e.2.units, u.stop < 2 ^ 32)
    (rest : Bytes) : Sno.decNode r (Sno.nodeBytes e.2 ++ rest) =
      some ({ r with r := { r.r with idx := (setN r.r.idx e.1 e.2).1 }, top := topOf r.top e.2.units }, rest) := by
  obtain ⟨i, hi⟩ := h.key
  have hshort := h.short
  rw [h.name] at hshort
  have hkl : k.length < 2 ^ 31 := by
    cases s <;> simp [nodeName] at hshort <;> omega
  have hasc : ∀ n, n < 2 ^ 31 → asCount n = n := by
    intro n hn; unfold asCount; rw [Nat.mod_eq_of_lt (by omega), if_pos hn]
  have hun : ∀ u ∈ e.2.units, InRange u ∧ u.stop < 2 ^ 32 := fun u hu => ⟨h.units u hu, hp u hu⟩
  unfold Sno.nodeBytes
  rw [h.kname, h.sname]
  simp only [Option.getD_some]
  unfold Sno.decNode
  simp only [List.append_assoc]
  rw [C01_ssize_roundtrip _ (by omega)]
  simp only [Option.bind_some]
  rw [if_pos (by omega), hasc _ hkl, takeBytes_append]
  simp only [Option.bind_some]
  cases s with
  | none =>
    rw [C01_ssize_roundtrip _ (by omega)]
    simp only [Option.bind_some]
    rw [hasc 0 (by omega)]
    rw [show ∀ m : Bytes, takeBytes 0 m = some ([], m) from fun m => takeBytes_append [] m]
    simp only [Option.bind_some, hi, if_true]
    rw [C01_ssize_roundtrip _ (by have := h.count; omega)]
    simp only [Option.bind_some]
    rw [hasc _ h.count, Sno.decUnits_enc _ hun]
    simp only [Option.map_some]
    have hn : shortName k none = e.1 := by
      unfold shortName; rw [List.take_of_length_le hshort, h.name]
    rw [hn]
    have he : (⟨some k, none, e.2.units⟩ : Node) = e.2 := by rw [← h.kname, ← h.sname]
    rw [he]
    rfl
  | some t =>
    obtain ⟨h1, dbs, h2⟩ := h.tab t rfl
    have htl : t.length < 2 ^ 31 := by simp [nodeName] at hshort; omega
    simp only [List.append_assoc]
    rw [C01_ssize_roundtrip _ (by omega)]
    simp only [Option.bind_some]
    rw [hasc _ htl, takeBytes_append]
    simp only [Option.bind_some, hi]
    rw [C01_ssize_roundtrip _ (by have := h.count; omega)]
    simp only [Option.bind_some]
    rw [hasc _ h.count, Sno.decUnits_enc _ hun]
    simp only [h1, if_false, h2, Option.map_some]
    have hn : shortName k (some t) = e.1 := by
      unfold shortName; rw [List.take_of_length_le hshort, h.name]
    rw [hn]
    have he : (⟨some k, some t, e.2.units⟩ : Node) = e.2 := by rw [← h.kname, ← h.sname]
    rw [he]
    rfl

def Pages (es : List (Bytes × Node)) : Prop := ∀ e ∈ es, ∀ u ∈ e.2.units, u.stop < 2 ^ 32

theorem decNodes_enc (es : List (Bytes × Node)) : ∀ (r : Sno.Rd) (f : Nat), Entries r.r.kd r.r.sd es → Pages es →
    (es.flatMap fun e => Sno.nodeBytes e.2).length ≤ f →
    Sno.decNodes f r (es.flatMap fun e => Sno.nodeBytes e.2) = some { r with r := { r.r with idx := putAll r.r.idx es }, top := tops r.top es } := by
  induction es with
  | nil => intro r f _ _ _; cases f <;> simp [Sno.decNodes, putAll, tops]
  | cons e es ih =>
    intro r f h hp hf
    obtain ⟨k, s, he⟩ := h e (by simp)
    have hps := Sno.nodeBytes_pos e.2
    simp only [List.flatMap_cons, List.length_append] at hf
    cases f with
    | zero => omega
    | succ f =>
      simp only [List.flatMap_cons, Sno.decNodes]
      rw [if_neg (by intro h; have := congrArg List.length h; simp only [List.length_append, List.length_nil] at this; omega), Sno.decNode_enc he (hp e (by simp))]
      simp only [Option.bind_some]
      exact ih { r with r := { r.r with idx := (setN r.r.idx e.1 e.2).1 }, top := topOf r.top e.2.units } f (fun e' he' => h e' (by simp [he']))
        (fun e' he' => hp e' (by simp [he'])) (by omega)

/-- The loop over the nodes makes one block, or more of which none is empty. -/
theorem encPages_spec (es : List (Bytes × Node)) : ∀ (mem : Bytes), (∀ e ∈ es, e.2.kname ≠ none) →
    ∃ ps, Sno.encPages mem (es.map (·.2)) = some ps ∧ ps.flatten = mem ++ es.flatMap (fun e => Sno.nodeBytes e.2) ∧ ∀ p ∈ ps, p ≠ [] := by
  induction es with
  | nil =>
    intro mem _
    simp only [List.map_nil, Sno.encPages]
    by_cases hm : mem = []
    · exact ⟨[], by rw [if_pos hm], by simp [hm], by simp⟩
    · exact ⟨[mem], by rw [if_neg hm], by simp, by simp [hm]⟩
  | cons e es ih =>
    intro mem hk
    simp only [List.map_cons, Sno.encPages]
    rw [Sno.encNode_eq (hk e (by simp))]
    simp only [Option.bind_some]
    have hps := Sno.nodeBytes_pos e.2
    split
    · obtain ⟨ps, h1, h2, h3⟩ := ih [] fun e he => hk e (by simp [he])
      rw [h1]
      refine ⟨_, rfl, by rw [List.flatten_cons, h2]; simp, ?_⟩
      intro p hp
      rcases List.mem_cons.1 hp with rfl | hp
      · intro h; have := congrArg List.length h; simp only [List.length_append, List.length_nil] at this; omega
      · exact h3 p hp
    · obtain ⟨ps, h1, h2, h3⟩ := ih (mem ++ Sno.nodeBytes e.2) fun e he => hk e (by simp [he])
      exact ⟨ps, h1, by rw [h2]; simp, h3⟩

theorem packs_length (lib : Lib) (hid : Nat) (ps : List Bytes) : ∀ z, (packs lib hid z ps).length = ps.length := by
  induction ps with
  | nil => intro z; rfl
  | cons p ps ih => intro z; simp [packs, ih]

theorem packs_hid {lib : Lib} (L : ZipOk lib) {hid : Nat} (hh : hid < 32) (ps : List Bytes) : ∀ z, ∀ b ∈ packs lib hid z ps, hidOf b.1 = hid := by
  induction ps with
  | nil => intro z b hb; cases hb
  | cons p ps ih =>
    intro z b hb
    rcases List.mem_cons.1 hb with rfl | hb
    · exact (unzipIdx_packed L z hh p).1
    · exact ih _ b hb

/-! ### The blocks at which pages end -/

structure EndOk (u : IUnit) : Prop where
  fidx : u.fidx < 2 ^ 16
  offset : u.offset < 2 ^ 64
  size : u.size < 2 ^ 64
  start : u.start < 2 ^ 64

theorem decStops_enc (us : List IUnit) (h : ∀ u ∈ us, EndOk u) (rest : Bytes) :
    decStops us.length ((us.flatMap fun u => encRef u ++ catSsize u.start) ++ rest) =
      some (us.map fun u => { fidx := u.fidx, offset := u.offset, size := u.size, start := u.start }, rest) := by
  induction us with
  | nil => rfl
  | cons u us ih =>
    have hu := h u (by simp)
    have h16 := hu.fidx
    simp only [List.length_cons, List.flatMap_cons, encRef, List.append_assoc, decStops, List.map_cons]
    rw [C01_ssize_roundtrip _ (by omega)]
    simp only [Option.bind_some]
    rw [C01_ssize_roundtrip _ hu.offset]
    simp only [Option.bind_some]
    rw [C01_ssize_roundtrip _ hu.size]
    simp only [Option.bind_some]
    rw [C01_ssize_roundtrip _ hu.start]
    simp only [Option.bind_some]
    have := ih fun u hu => h u (by simp [hu])
    simp only [encRef, List.append_assoc] at this
    rw [this]
    simp only [Option.map_some]
    rw [Nat.mod_eq_of_lt h16]

theorem decEnds_enc (us : List IUnit) (h : ∀ u ∈ us, EndOk u) (hc : us.length < 2 ^ 31) (r : Sno.Rd) :
    decEnds (encEnds us).length r (encEnds us) =
      some { r with ends := us.map fun u => { fidx := u.fidx, offset := u.offset, size := u.size, start := u.start } } := by
  have hp : 1 ≤ (encEnds us).length := by
    unfold encEnds; have := catSsize_pos us.length; simp only [List.length_append]; omega
  obtain ⟨f, hf⟩ : ∃ f, (encEnds us).length = f + 1 := ⟨(encEnds us).length - 1, by omega⟩
  rw [hf, decEnds]
  rw [if_neg (by intro h; rw [h] at hp; simp at hp)]
  have e1 : getSsize (encEnds us) = some (us.length, us.flatMap fun u => encRef u ++ catSsize u.start) := C01_ssize_roundtrip _ (by omega) _
  have e2 := decStops_enc us h []
  rw [List.append_nil] at e2
  rw [e1]
  simp only [Option.bind_some]
  rw [show asCount us.length = us.length by unfold asCount; rw [Nat.mod_eq_of_lt (by omega), if_pos hc], e2]
  simp only [Option.bind_some]
  cases f <;> simp [decEnds]

/-! ### The index as blocks and back -/

theorem decIdx_append (lib : Lib) (body : Bytes) (as : List (UInt8 × Bytes)) : ∀ (bs : List (UInt8 × Bytes)) (r : Sno.Rd),
    Sno.decIdx lib body r (as ++ bs) = (Sno.decIdx lib body r as).bind fun r => Sno.decIdx lib body r bs := by
  induction as with
  | nil => intro bs r; rfl
  | cons a as ih =>
    intro bs r
    simp only [List.cons_append, Sno.decIdx]
    cases Sno.decBlock lib body r a with
    | none => rfl
    | some r => simp only [Option.bind_some]; exact ih bs r

theorem idx_back {lib : Lib} (L : ZipOk lib) {body : Bytes} {kd : List Bytes} {sd : TDict} {idx : Idx} {ends : List IUnit} (h : IdxOk lib body kd sd idx)
    (hp : Pages (data idx)) (he : ∀ u ∈ ends, EndOk u) (hc : ends.length < 2 ^ 31) :
    ∃ bs, Sno.encIdx lib idx ends = some bs ∧ (∀ b ∈ bs, hidOf b.1 ≠ 0 ∧ hidOf b.1 ≠ 31) ∧
      (bs ≠ [] → (bs.filter fun b => hidOf b.1 == hidIdxSno).length ≤ 1 → ∃ r, Sno.decIdx lib body {} bs = some r ∧
        r.r = ⟨kd, sd, dictNode idx signKeys ++ dictNode idx signTabs ++ data idx⟩ ∧ r.pages = tops 0 (data idx) + 1 ∧
        (∀ u ∈ r.ends, EndOk u) ∧ r.ends.length ≤ ends.length) := by
  obtain ⟨ps, p1, p2, p3⟩ := Sno.encPages_spec (data idx) [] fun e he => by
    obtain ⟨k, s, hes⟩ := h.ents e he
    rw [hes.kname]; simp
  rw [List.nil_append] at p2
  unfold Sno.encIdx
  have hd : (idx.filter fun e => !sameN signKeys e.1 && !sameN signTabs e.1).map (·.2) = (data idx).map (·.2) := rfl
  simp only [hd, p1, Option.map_some]
  have k1 : ∀ (hid : Nat) (d : Bytes), hid < 32 → hidOf (packed lib true hid d).1 = hid := fun hid d hh => (unzipIdx_packed L true hh d).1
  have k2 : ∀ (hid : Nat) (d : Bytes), hid < 32 → unzipIdx lib (packed lib true hid d) = d := fun hid d hh => (unzipIdx_packed L true hh d).2
  refine ⟨_, rfl, ?_, ?_⟩
  · intro b hb
    simp only [List.mem_append] at hb
    rcases hb with ((hb | hb) | hb) | hb
    · split at hb
      · rw [List.mem_singleton.1 hb, k1 _ _ (by decide)]; decide
      · cases hb
    · split at hb
      · rw [List.mem_singleton.1 hb, k1 _ _ (by decide)]; decide
      · cases hb
    · split at hb
      · cases hb
      · rw [List.mem_singleton.1 hb, k1 _ _ (by decide)]; decide
    · rw [packs_hid L (by decide) ps _ b hb]; decide
  · intro hne hone
    have h1 : ∃ r, Sno.decIdx lib body {} (match getN idx signKeys with
        | some n => [packed lib true hidIdxKeys (encRefs n.units)]
        | none => []) = some r ∧ r.r = ⟨kd, [], dictNode idx signKeys⟩ ∧ r.ends = [] ∧
          (r.pages = 1 ∨ (match getN idx signKeys with
        | some n => [packed lib true hidIdxKeys (encRefs n.units)]
        | none => []) = []) := by
      have hk := h.keys
      have hc := h.kcount
      have hu := h.kunits
      unfold dictUnits at hk hc hu
      unfold dictNode
      cases hg : getN idx signKeys with
      | none => rw [hg] at hk; simp [readKeys] at hk; exact ⟨{}, rfl, by simp [hk], rfl, .inr rfl⟩
      | some n =>
        rw [hg] at hk hc hu
        simp only [Option.map_some, Option.getD_some] at hk hc hu
        simp only [Sno.decIdx, Sno.decBlock, decContent, k1 hidIdxKeys _ (by decide), k2 hidIdxKeys _ (by decide), if_true]
        rw [decDict_enc lib body true n.units hu hc]
        simp only [if_true, readKeys_bare, hk, Option.map_some, Option.bind_some]
        exact ⟨_, rfl, rfl, rfl, .inl rfl⟩
    obtain ⟨r1, d1, e1, n1, g1⟩ := h1
    have h2 : ∃ r, Sno.decIdx lib body r1 (match getN idx signTabs with
        | some n => [packed lib true hidIdxTabs (encRefs n.units)]
        | none => []) = some r ∧ r.r = ⟨kd, sd, dictNode idx signKeys ++ dictNode idx signTabs⟩ ∧ r.ends = [] ∧
          (r.pages = 1 ∨ ((match getN idx signKeys with
        | some n => [packed lib true hidIdxKeys (encRefs n.units)]
        | none => []) = [] ∧ (match getN idx signTabs with
        | some n => [packed lib true hidIdxTabs (encRefs n.units)]
        | none => []) = [])) := by
      have hk := h.tabs
      have hc := h.tcount
      have hu := h.tunits
      unfold dictUnits at hk hc hu
      cases hg : getN idx signTabs with
      | none =>
        rw [hg] at hk
        simp [readTabs] at hk
        refine ⟨r1, rfl, ?_, n1, ?_⟩
        · rw [e1]; simp [hk, dictNode, hg]
        · rcases g1 with g | g
          · exact .inl g
          · exact .inr ⟨g, rfl⟩
      | some n =>
        rw [hg] at hk hc hu
        simp only [Option.map_some, Option.getD_some] at hk hc hu
        simp only [Sno.decIdx, Sno.decBlock, decContent, k1 hidIdxTabs _ (by decide), k2 hidIdxTabs _ (by decide)]
        rw [if_neg (by decide), if_pos trivial, decDict_enc lib body false n.units hu hc]
        simp only [Bool.false_eq_true, if_false, readTabs_bare, e1, hk, Option.map_some, Option.bind_some]
        refine ⟨_, rfl, ?_, n1, .inl rfl⟩
        simp only
        congr 1
        unfold dictNode
        rw [hg]
        cases getN idx signKeys <;> rfl
    obtain ⟨r2, d2, e2, n2, g2⟩ := h2
    have h3 : ∃ r, Sno.decIdx lib body r2 (if ends = [] then [] else [packed lib true hidIdxEnd (encEnds ends)]) = some r ∧ r.r = r2.r ∧
        (∀ u ∈ r.ends, EndOk u) ∧ r.ends.length ≤ ends.length ∧ (ends = [] → r.pages = r2.pages) ∧ (ends ≠ [] → r.pages = 1) := by
      by_cases hn : ends = []
      · rw [if_pos hn]
        exact ⟨r2, rfl, rfl, by rw [n2]; simp, by rw [n2]; simp, fun _ => rfl, fun h => absurd hn h⟩
      · rw [if_neg hn]
        simp only [Sno.decIdx, Sno.decBlock, decContent, k1 hidIdxEnd _ (by decide), k2 hidIdxEnd _ (by decide)]
        rw [if_neg (by decide), if_neg (by decide), if_pos trivial, decEnds_enc ends he hc]
        simp only [Option.map_some, Option.bind_some]
        refine ⟨_, rfl, rfl, ?_, by simp, fun h => absurd h hn, fun _ => rfl⟩
        intro u hu
        obtain ⟨v, hv, rfl⟩ := List.mem_map.1 hu
        exact ⟨(he v hv).fidx, (he v hv).offset, (he v hv).size, (he v hv).start⟩
    obtain ⟨r3, d3, e3, n3, l3, g3, g3'⟩ := h3
    have happ : Sno.decIdx lib body {} ((match getN idx signKeys with
        | some n => [packed lib true hidIdxKeys (encRefs n.units)]
        | none => []) ++ (match getN idx signTabs with
        | some n => [packed lib true hidIdxTabs (encRefs n.units)]
        | none => []) ++ (if ends = [] then [] else [packed lib true hidIdxEnd (encEnds ends)]) ++ packs lib hidIdxSno true ps) =
          Sno.decIdx lib body r3 (packs lib hidIdxSno true ps) := by
      rw [decIdx_append, decIdx_append, decIdx_append, d1]
      simp only [Option.bind_some]
      rw [d2]
      simp only [Option.bind_some]
      rw [d3]
      rfl
    suffices hs : ∃ r, Sno.decIdx lib body r3 (packs lib hidIdxSno true ps) = some r ∧
        r.r = ⟨kd, sd, dictNode idx signKeys ++ dictNode idx signTabs ++ data idx⟩ ∧ r.pages = tops 0 (data idx) + 1 ∧
        (∀ u ∈ r.ends, EndOk u) ∧ r.ends.length ≤ ends.length by
      obtain ⟨r, hr, hs⟩ := hs
      exact ⟨r, happ.trans hr, hs⟩
    have hps : ps.length ≤ 1 := by
      rw [List.filter_append] at hone
      have : (packs lib hidIdxSno true ps).filter (fun b => hidOf b.1 == hidIdxSno) = packs lib hidIdxSno true ps := by
        rw [List.filter_eq_self]
        intro b hb
        simp [packs_hid L (show hidIdxSno < 32 by decide) ps _ b hb]
      rw [this, List.length_append, packs_length] at hone
      omega
    have hput : putAll (dictNode idx signKeys ++ dictNode idx signTabs) (data idx) = dictNode idx signKeys ++ dictNode idx signTabs ++ data idx := by
      rw [putAll_append]
      have hin : ∀ sign x, x ∈ dictNode idx sign → x.1 = sign := by
        intro sign x hx
        unfold dictNode at hx
        cases hg : getN idx sign with
        | none => rw [hg] at hx; simp at hx
        | some n => rw [hg] at hx; simp at hx; rw [hx]
      have hone : ∀ sign, (dictNode idx sign).Pairwise fun a b => sameN a.1 b.1 = false := by
        intro sign
        unfold dictNode
        cases getN idx sign <;> simp
      have hdat : ∀ x ∈ data idx, sameN signKeys x.1 = false ∧ sameN signTabs x.1 = false := by
        intro x hx
        simpa [data] using (List.mem_filter.1 hx).2
      rw [List.pairwise_append, List.pairwise_append]
      refine ⟨⟨hone _, hone _, ?_⟩, h.diff.filter _, ?_⟩
      · intro a ha b hb
        rw [hin _ _ ha, hin _ _ hb]; decide
      · intro a ha b hb
        rcases List.mem_append.1 ha with ha | ha
        · rw [hin _ _ ha]; exact (hdat b hb).1
        · rw [hin _ _ ha]; exact (hdat b hb).2
    cases hps' : ps with
    | nil =>
      rw [hps'] at p2 hne
      have hdn : data idx = [] := by
        cases hdd : data idx with
        | nil => rfl
        | cons e l =>
          rw [hdd] at p2
          have h1 := congrArg List.length p2
          have h2 := Sno.nodeBytes_pos e.2
          simp only [List.flatten_nil, List.length_nil, List.flatMap_cons, List.length_append] at h1
          omega
      refine ⟨r3, rfl, ?_, ?_, n3, l3⟩
      · rw [e3, e2, hdn]; simp
      · rw [hdn]
        show r3.pages = 1
        by_cases hn : ends = []
        · rw [g3 hn]
          rcases g2 with g | ⟨ga, gb⟩
          · exact g
          · refine absurd ?_ hne
            rw [if_pos hn]
            have ga' := ga
            have gb' := gb
            simp only [packs, List.append_nil]
            exact List.append_eq_nil_iff.2 ⟨ga', gb'⟩
        · exact g3' hn
    | cons p l =>
      rw [hps'] at hps p2
      have hl : l = [] := by cases l with
        | nil => rfl
        | cons _ _ => simp at hps
      rw [hl] at p2 ⊢
      rw [List.flatten_cons, List.flatten_nil, List.append_nil] at p2
      simp only [packs, Sno.decIdx, Sno.decBlock, decContent, k1 hidIdxSno _ (by decide), k2 hidIdxSno _ (by decide)]
      rw [if_neg (by decide), if_neg (by decide), if_neg (by decide), if_pos trivial, p2]
      rw [Sno.decNodes_enc (data idx) { r3 with top := 0 } _ (by show Entries r3.r.kd r3.r.sd (data idx); rw [e3, e2]; exact h.ents) hp (Nat.le_refl _)]
      simp only [Option.map_some, Option.bind_some]
      refine ⟨_, rfl, ?_, rfl, n3, l3⟩
      simp only [e3, e2, hput]

end Sis.Sno
