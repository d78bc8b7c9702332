import Verif.Sic.PlayLemmas
import Verif.Sno.SessionLemmas
/- Lemmas on an open file of compressed records: what it has in memory and in the file. -/
namespace Sis.Sic
open Sis Sis.Disk Sis.Sdb
open Sis.Sno (Rec More EndOk inv_body addName spell)
open Sis.Dyn (sameN getN setN Db)

/-- The dictionary of tables of which each has one definition. -/
def sdOf (ts : List (Bytes × Db)) : TDict := ts.map fun t => (t.1, [t.2])

def dbsOf (ts : List (Bytes × Db)) : List Db := ts.map (·.2)

/-- The blocks of records. -/
def sics (bs : List (UInt8 × Bytes)) : List Bytes := (bs.filter fun b => hidOf b.1 == hidSic).map (·.2)

theorem sics_append (as bs : List (UInt8 × Bytes)) : sics (as ++ bs) = sics as ++ sics bs := by simp [sics]

theorem sics_none {bs : List (UInt8 × Bytes)} (h : ∀ b ∈ bs, hidOf b.1 ≠ hidSic) : sics bs = [] := by
  unfold sics
  rw [List.map_eq_nil_iff, List.filter_eq_nil_iff]
  intro b hb
  simpa using h b hb

/-- The head of a block of records. -/
def sicHead : UInt8 := headByte 1 2 hidSic

theorem hid_sic : hidOf sicHead = hidSic := by decide

theorem sics_all (B : List Bytes) : sics (B.map fun b => (sicHead, b)) = B := by
  unfold sics
  rw [List.filter_eq_self.2]
  · rw [List.map_map]; exact List.map_id _
  · intro b hb
    obtain ⟨x, _, rfl⟩ := List.mem_map.1 hb
    simp [hid_sic]

/-- What is in the file. -/
structure Base (lib : Lib) (P : Db → Prop) (ks : List Bytes) (ts : List (Bytes × Db)) (f : File) (bs : List (UInt8 × Bytes)) : Prop where
  inv : Inv lib P f.c
  newk : f.c.newk = []
  news : f.c.news = []
  keys : f.c.kd = ks
  tabs : f.c.sd = sdOf ts
  plain : ∀ t ∈ ts, Zip.Plain t.2 ∧ Short t.2
  idx : data f.c.idx = []
  knum : f.c.kd.length ≤ f.c.body.length
  snum : f.c.sd.length ≤ f.c.body.length
  kcnt : (dictUnits f.c.idx signKeys).length ≤ f.c.body.length
  scnt : (dictUnits f.c.idx signTabs).length ≤ f.c.body.length
  ends : ∀ u ∈ f.news, EndOk u
  ecnt : f.news.length ≤ f.c.body.length
  msec : f.msec < 2 ^ 64
  body : f.c.body = bs.flatMap fun b => encRec b.1 b.2
  blocks : ∀ b ∈ bs, hidOf b.1 ≠ 0 ∧ hidOf b.1 ≠ 31 ∧ b.2.length < 2 ^ 64

/-- Names are added. -/
theorem Base.more {lib : Lib} {P : Db → Prop} {keys keys' : List Bytes} {tabs tabs' : List (Bytes × Db)} {f : File} {c' : Ctl} {bs : List (UInt8 × Bytes)}
    (h : Base lib P keys tabs f bs) (m : More f.c c') (hi : Inv lib P c') (hk : c'.newk = []) (hn : c'.news = []) (h1 : c'.kd.length ≤ c'.body.length)
    (h2 : c'.sd.length ≤ c'.body.length) (h3 : c'.kd = keys') (h4 : c'.sd = sdOf tabs') (h5 : ∀ t ∈ tabs', Zip.Plain t.2 ∧ Short t.2) :
    ∃ nb, Base lib P keys' tabs' { f with c := c' } (bs ++ nb) ∧ sics nb = [] := by
  obtain ⟨nb, hb, hbs⟩ := m.blocks
  refine ⟨nb, ⟨hi, hk, hn, h3, h4, h5, ?_, h1, h2, ?_, ?_, h.ends, ?_, h.msec, ?_, ?_⟩, ?_⟩
  · refine List.eq_nil_iff_forall_not_mem.2 fun e he => ?_
    have := m.sub e he
    rw [h.idx] at this
    cases this
  · have := h.kcnt; have := m.kcnt; show (dictUnits c'.idx signKeys).length ≤ c'.body.length; omega
  · have := h.scnt; have := m.scnt; show (dictUnits c'.idx signTabs).length ≤ c'.body.length; omega
  · have := h.ecnt; show f.news.length ≤ c'.body.length; rw [hb, List.length_append]; omega
  · show c'.body = _
    rw [hb, h.body, List.flatMap_append]
  · intro b hb
    rcases List.mem_append.1 hb with hb | hb
    · exact h.blocks b hb
    · have := hbs b hb
      refine ⟨?_, ?_, this.2⟩ <;> rcases this.1 with h | h <;> rw [h] <;> decide
  · refine sics_none fun b hb => ?_
    rcases (hbs b hb).1 with h | h <;> rw [h] <;> decide

theorem encRec_len (h : UInt8) (b : Bytes) : b.length < (encRec h b).length := by
  unfold encRec
  simp only [List.length_cons, List.length_append]
  omega

/-- Blocks are added. -/
theorem Base.add {lib : Lib} {P : Db → Prop} {keys : List Bytes} {tabs : List (Bytes × Db)} {f : File} {bs : List (UInt8 × Bytes)} (h : Base lib P keys tabs f bs)
    (nb : List (UInt8 × Bytes)) (hnb : ∀ b ∈ nb, hidOf b.1 ≠ 0 ∧ hidOf b.1 ≠ 31 ∧ b.2.length < 2 ^ 64) {f' : File}
    (hc : f'.c = { f.c with body := f.c.body ++ nb.flatMap fun b => encRec b.1 b.2 }) (hn : ∀ u ∈ f'.news, u ∈ f.news ∨ EndOk u) (hl : f'.news.length ≤ f'.c.body.length)
    (hm : f'.msec < 2 ^ 64) : Base lib P keys tabs f' (bs ++ nb) := by
  have hlen : f.c.body.length ≤ f'.c.body.length := by rw [hc]; simp
  refine ⟨?_, ?_, ?_, ?_, ?_, h.plain, ?_, ?_, ?_, ?_, ?_, ?_, hl, hm, ?_, ?_⟩
  · rw [hc]; exact inv_body h.inv _
  · rw [hc]; exact h.newk
  · rw [hc]; exact h.news
  · rw [hc]; exact h.keys
  · rw [hc]; exact h.tabs
  · rw [hc]; exact h.idx
  · refine Nat.le_trans ?_ hlen; rw [hc]; exact h.knum
  · refine Nat.le_trans ?_ hlen; rw [hc]; exact h.snum
  · refine Nat.le_trans ?_ hlen; rw [hc]; exact h.kcnt
  · refine Nat.le_trans ?_ hlen; rw [hc]; exact h.scnt
  · intro u hu
    rcases hn u hu with hu | hu
    · exact h.ends u hu
    · exact hu
  · rw [hc]; show f.c.body ++ _ = _; rw [h.body, List.flatMap_append]
  · intro b hb
    rcases List.mem_append.1 hb with hb | hb
    · exact h.blocks b hb
    · exact hnb b hb

theorem putBlocks_eq (B : List Bytes) : ∀ f : File, ∃ n, putBlocks f B = { f with
    c := { f.c with body := f.c.body ++ (B.map fun b => (sicHead, b)).flatMap fun b => encRec b.1 b.2 }, zipsize := n } := by
  induction B with
  | nil => intro f; exact ⟨f.zipsize, by simp [putBlocks]⟩
  | cons b B ih =>
    intro f
    obtain ⟨n, hn⟩ := ih (putBlock f b)
    refine ⟨n, ?_⟩
    unfold putBlocks at hn ⊢
    rw [List.foldl_cons, hn]
    simp [putBlock, sicHead]

/-- Blocks of records are added. -/
theorem Base.put {lib : Lib} {P : Db → Prop} {keys : List Bytes} {tabs : List (Bytes × Db)} {f : File} {bs : List (UInt8 × Bytes)} (h : Base lib P keys tabs f bs)
    (B : List Bytes) (hs : (putBlocks f B).c.body.length < 2 ^ 64) : Base lib P keys tabs (putBlocks f B) (bs ++ B.map fun b => (sicHead, b)) := by
  obtain ⟨n, hn⟩ := putBlocks_eq B f
  rw [hn] at hs ⊢
  refine h.add _ ?_ rfl (fun u hu => .inl hu) ?_ h.msec
  · intro b hb
    obtain ⟨x, hx, rfl⟩ := List.mem_map.1 hb
    refine ⟨by show hidOf sicHead ≠ 0; decide, by show hidOf sicHead ≠ 31; decide, ?_⟩
    have h1 := encRec_len sicHead x
    have h2 := flatMap_len hb
    simp only [List.length_append] at hs
    simp only at h2 ⊢
    omega
  · have := h.ecnt
    simp only [List.length_append]
    omega

/-- Names in place of numbers. -/
def named (keys : List Bytes) (tabs : List (Bytes × Db)) (x : Zip.Rec) : Rec := ⟨(keys[x.1]?).getD [], ((tabs[x.2.1]?).map (·.1)).getD [], x.2.2⟩

/-- The last record of a key and a table, by their numbers. -/
def lastN (keys : List Bytes) (tabs : List (Bytes × Db)) (now : List Rec) (k s : Nat) (x : Bytes) : Prop :=
  ∃ kn t, keys[k]? = some kn ∧ tabs[s]? = some t ∧ lastOf now kn t.1 = some x

structure St (lib : Lib) (P : Db → Prop) (a : Abs) (f : File) (bs : List (UInt8 × Bytes)) (rs : List Zip.Rec) : Prop where
  base : Base lib P a.keys a.tabs f bs
  recs : a.recs = rs.map (named a.keys a.tabs)
  rng : ∀ x ∈ rs, x.1 < a.keys.length ∧ x.2.1 < a.tabs.length
  empty : a.tabs = [] → sics bs = []
  idle : f.z = none → a.now = none ∧ Plays (dbsOf a.tabs) a.keys.length (sics bs) rs
  live : ∀ z, f.z = some z → a.tabs ≠ [] ∧ ∃ now, a.now = some now ∧ Live (dbsOf a.tabs) a.keys.length (sics bs) rs z (lastN a.keys a.tabs now)

end Sis.Sic
