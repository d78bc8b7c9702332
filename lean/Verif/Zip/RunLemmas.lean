import Verif.Zip.SimLemmas
/-
Stepwise compression and decompression: one operation and a history.
-/
namespace Sis.Zip
open Sis Sis.BitS

theorem pieces_elem {n : Nat} {b : Bytes} {i : Nat} {r : Bytes} (h : (pieces n b)[i]? = some r) : Dyn.elem b (i * n) n = some r := by
  unfold pieces at h
  rw [List.getElem?_map, Option.map_eq_some_iff] at h
  obtain ⟨j, h1, rfl⟩ := h
  obtain ⟨h2, h3⟩ := List.getElem?_eq_some_iff.1 h1
  rw [List.length_range] at h2
  rw [List.getElem_range] at h3
  subst h3
  refine elem_eq_some ?_
  have h4 : (i + 1) * n ≤ b.length / n * n := Nat.mul_le_mul_right _ h2
  have h5 := Nat.div_mul_le_self b.length n
  rw [Nat.succ_mul] at h4
  omega

theorem pieces_length (n : Nat) (b : Bytes) : (pieces n b).length = b.length / n := by
  unfold pieces
  simp

/-- One bag. -/
theorem sim_bag {dbs xs : List Dyn.Db} (hpl : ∀ db ∈ dbs, Plain db) {kd zs : Nat} {z z' d : Z} {p : Last} {dec : List Rec} {mem' unz' : Bytes} (h : Sim dbs xs kd zs z d p dec mem' unz')
    {k s : Nat} {db : Dyn.Db} (hdb : dbs[s]? = some db) (hk : k < z.keys) (hkd : k < kd) {src : Bytes} {rs : List Bytes} (hn : rs.length < 2 ^ 31)
    (hrs : ∀ i r, rs[i]? = some r → Dyn.elem src (i * db.size) db.size = some r) (hfit : Fits dbs p k s rs)
    (hb : bag z (k * z.sum + off dbs s) k s rs.length ⟨db, off dbs s, db.fields.length % 2 ^ 16⟩ src = some z') (hsz : getSize z' ≤ zs) :
    z'.keys = z.keys ∧ ∃ dec2 mem2 unz2, Sim dbs xs kd zs z' d (p.after k s rs) (dec ++ dec2) mem2 unz2 ∧ SameRecs dbs dec2 (rs.map fun r => (k, s, r)) := by
  obtain ⟨⟨ke, T⟩, hst, hzs, hmax, hbig, hbuf, hsmall, hkeys, hw, hpend, hdt, hds, hkn, hul⟩ := h
  have hp := hpl db (List.mem_of_getElem? hdb)
  have hW := hw.2.1 k s db hk hdb
  rw [T.total] at hb hkeys
  have hin := inside hdb hk
  have hdx : (dbs ++ xs)[s]? = some db := at_append hdb
  have hind := inside hdx hkd
  rw [off_at hdb] at hind
  have hmany := many hpl
  have hs : s < dbs.length := (List.getElem?_eq_some_iff.1 hdb).1
  have hk32 : k < 2 ^ 32 ∧ s < 2 ^ 31 := by
    have h1 := off_total hdb
    have h2 : z.keys * 1 ≤ z.keys * total dbs := Nat.mul_le_mul_left _ (by omega)
    have h3 : 1 * total dbs ≤ z.keys * total dbs := Nat.mul_le_mul_right _ (by omega)
    omega
  obtain ⟨l, hl, hlb⟩ : ∃ l, Holds z.s l ∧ z.bags ≤ l.length ∧ l.length ≤ zs * 8 := by
    cases hpend with
    | none e1 e2 e3 e4 => exact ⟨[], ⟨e3, by omega, by rw [e3]; rfl⟩, by rw [e1]; exact Nat.zero_le _, Nat.zero_le _⟩
    | some e1 e2 e3 e4 e5 e6 e7 e8 e9 e10 =>
      refine ⟨_, e8, by rw [List.length_append]; omega, ?_⟩
      have := e8.1
      omega
  obtain ⟨flag, css, b1, b2, b3, b4, b5, b6, b7, b8, b9, b10, b11, b12⟩ := bag_ok (t := ⟨db, off dbs s, db.fields.length % 2 ^ 16⟩) hp (Nat.mod_eq_of_lt hp.2.1) (l := l) (rs := rs)
    hl (by rw [hmax, Nat.mul_mod_left]) (by omega) hrs hW.elem hb
  dsimp only at b2 b9 b10
  obtain ⟨c1, c2, c3, c4, c5⟩ := b12 (by rw [hmax]; omega)
  obtain ⟨f1, f2, f3, f4, f5, f6, f7, f8⟩ := b3
  have hflag := hW.flag b1
  refine ⟨f5, ?_⟩
  have hu : db.size ≤ unz'.length := by rw [hul]; exact hdt.max db (List.mem_of_getElem? hdx)
  obtain ⟨dec2, mem2, unz2, g1, g2, g3, g4⟩ := unBag_ok (t := ⟨db, off dbs s, db.fields.length % 2 ^ 16⟩) (tabs := d.tabs) (keys := d.keys) (sum := total (dbs ++ xs)) (mem := mem') (unz := unz') hdb
    (by rw [hdt.tab s db hdx, ← off_at (xs := xs) hdb]; rfl) (by rw [hdt.keys]; exact hkd) hk32.1 hk32.2 hn hflag b2 (fun h0 => (hfit db hdb).1 h0) (fun a ha => (hfit db hdb).2 a ha) (fun a ha => hkn.2 k s db a hdb ha)
    hu (by rw [hkn.1]; exact hind)
  dsimp only at g1 g3 g4
  obtain ⟨g5, g6, g7⟩ := g3
  have hwrote : WroteAll dbs z'.keys z'.mem (p.after k s rs) := by
    refine ⟨by rw [b6, f5]; exact hw.1, ?_, ?_⟩
    · intro k' s' db' hk' hs'
      rw [f5] at hk'
      by_cases hsame : k' = k ∧ s' = s
      · obtain ⟨rfl, rfl⟩ := hsame
        rw [hdb] at hs'
        cases hs'
        unfold Last.after
        rw [if_pos ⟨rfl, rfl⟩]
        cases hrl : rs.getLast? with
        | none =>
          have : rs = [] := List.getLast?_eq_none_iff.1 hrl
          rw [b8 this, Option.none_or]
          exact hW
        | some a =>
          rw [Option.some_or]
          refine ⟨b7 (by rintro rfl; cases hrl), ?_⟩
          rw [hrl] at b9
          exact b9
      · unfold Last.after
        rw [if_neg hsame]
        have hap := apart hdb hs' hsame
        exact (hw.2.1 k' s' db' hk' hs').keep fun q q1 q2 => b10 q (by omega)
    · intro k' s' hk'
      rw [f5] at hk'
      unfold Last.after
      rw [if_neg (by omega)]
      exact hw.2.2 k' s' hk'
  have hknows : KnowsAll dbs xs kd mem2 (p.after k s rs) := by
    refine ⟨g5.trans hkn.1, ?_⟩
    intro k' s' db' a hs' ha
    unfold Last.after at ha
    by_cases hsame : k' = k ∧ s' = s
    · rw [if_pos hsame] at ha
      obtain ⟨rfl, rfl⟩ := hsame
      rw [hdb] at hs'
      cases hs'
      exact g4 a ha
    · rw [if_neg hsame] at ha
      have hap := apart hdx (at_append (xs := xs) hs') hsame
      rw [off_at hdb, off_at hs'] at hap
      exact (hkn.2 k' s' db' a hs' ha).keep g5 fun q q1 q2 => g7 q (by omega)
  have hpend' : Pending d z' (dec ++ dec2) mem2 unz2 := by
    rw [headCalls_bits] at c1
    cases hpend with
    | none e1 e2 e3 e4 =>
      have hl0 : l = [] := List.eq_nil_of_length_eq_zero (by rw [← hl.1]; exact e3)
      subst hl0
      rw [if_pos e4.symm, callBits_one, List.nil_append, List.append_assoc] at c1
      refine .some (b := z.init) (by omega) (by rw [b5, if_pos e4.symm]) (by rw [f7, hzs]; exact hsz) c2 c3 c4 (by rw [c5, b4]) c1 ?_ ?_
      · rw [b4, e1, List.length_append, List.length_append, natBits_length]
        omega
      · rw [b4, e1, hdt.total]
        have hr0 : Rd (unBags d.tabs d.keys (total (dbs ++ xs)) 0 d.mem d.unz) [] ([], d.mem, d.unz) := Rd_pure _
        have := unBags_more hr0 g1
        rw [List.nil_append, List.nil_append] at this
        exact this
    | @some b l' dec mem' unz' e1 e2 e3 e4 e5 e6 e7 e8 e9 e10 =>
      have hll : l = natBits 1 b ++ l' := hl.2.2.symm.trans e8.2.2
      rw [if_neg (by omega), show callBits [] = [] from rfl, List.nil_append, hll, List.append_assoc] at c1
      refine .some (b := b) (by omega) (by rw [b5, if_neg (by omega)]; exact e2) (by rw [f7, hzs]; exact hsz) c2 c3 c4 (by rw [c5, b4]) c1 ?_ ?_
      · rw [b4, List.length_append, List.length_append, List.length_append, natBits_length]
        omega
      · rw [b4, hdt.total]
        rw [hdt.total] at e10
        exact unBags_more e10 g1
  exact ⟨dec2, mem2, unz2, ⟨⟨ke, T.same f2 f3 f5 f4⟩, f1.trans hst, f7.trans hzs, f6.trans hmax, hbig, by rw [b11]; exact hbuf, hsmall, by rw [f5, f3, T.total]; exact hkeys, hwrote, hpend', hdt, hds, hknows,
    g6.trans hul⟩, g2⟩

theorem feed_append {d d1 : Z} {bs bs' : List Bytes} {rs : List Rec} (h : feed d bs = some (rs, d1)) : feed d (bs ++ bs') = (feed d1 bs').map fun (rs', d) => (rs ++ rs', d) := by
  induction bs generalizing d rs with
  | nil =>
    simp only [feed, Option.some.injEq, Prod.mk.injEq] at h
    obtain ⟨rfl, rfl⟩ := h
    simp
  | cons b bs ih =>
    simp only [feed, Option.bind_eq_some_iff, Option.map_eq_some_iff] at h
    obtain ⟨⟨n, r1, d2⟩, h1, ⟨r2, d3⟩, h2, h3⟩ := h
    cases h3
    simp only [List.cons_append, feed, h1, Option.bind_some]
    rw [ih h2]
    cases feed d3 bs' with
    | none => rfl
    | some v => simp

theorem feed_one {d d1 : Z} {b : Bytes} {n : Int} {rs : List Rec} (h : unStep d b = some (n, rs, d1)) : feed d [b] = some (rs, d1) := by
  simp [feed, h]

/-- One operation: what is handed on is read, and the rest is pending. -/
theorem sim_op {dbs xs : List Dyn.Db} (hpl : ∀ db ∈ dbs, Plain db) {kd zs : Nat} {z z' d : Z} {p : Last} {dec : List Rec} {mem' unz' : Bytes} (h : Sim dbs xs kd zs z d p dec mem' unz')
    {op : Op} {n : Int} {bs : List Bytes} (hd : does z op = some (n, bs, z')) (hsz : getSize z' ≤ zs) (hk : ∀ k s src, op = .step k s src → 0 < n → k < kd)
    {evs : List Ev} (hf : Flow dbs p (⟨op, n, bs, getSize z'⟩ :: evs)) :
    ∃ out d' p' dec' new mem2 unz2, feed d bs = some (out, d') ∧ Sim dbs xs kd zs z' d' p' dec' mem2 unz2 ∧ out ++ dec' = dec ++ new ∧
      SameRecs dbs new (sent dbs [⟨op, n, bs, getSize z'⟩]) ∧ Flow dbs p' evs := by
  cases op with
  | addKey m =>
    simp only [does, Option.map_eq_some_iff] at hd
    obtain ⟨⟨r, z1⟩, h1, h2⟩ := hd
    cases h2
    exact ⟨[], d, p, dec, [], mem', unz', rfl, sim_add h h1, by simp, .nil, hf⟩
  | restart init =>
    simp only [does, Option.map_eq_some_iff] at hd
    obtain ⟨⟨bs1, z1⟩, h1, h2⟩ := hd
    cases h2
    unfold restart at h1
    rw [if_neg (by rw [h.status]; decide)] at h1
    dsimp only at h1
    have key : ∀ z1 d1 dec1 mem1 unz1, Sim dbs xs kd zs z1 d1 p dec1 mem1 unz1 → dec1 = [] → z1.init = 1 ∨ init = false → z1.bags = 0 → z1.bagsize = 0 → z1.s.pos = 0 →
        Sim dbs xs kd zs (if init = true then { z1 with init := 1, mem := List.replicate (z1.keys * z1.sum) 0 } else z1) d1 (if init then fun _ _ => none else p) dec1 mem1 unz1 := by
      intro z1 d1 dec1 mem1 unz1 hs hd1 hi1 hb1 hb2 hb3
      cases init with
      | false => exact hs
      | true =>
        obtain ⟨⟨ke, T⟩, hst, hzs, hmax, hbig, hbuf, hsmall, hkeys, hw, hpend, hdt, hds, hkn, hul⟩ := hs
        rw [if_pos rfl, if_pos rfl]
        refine ⟨⟨ke, T.same rfl rfl rfl rfl⟩, hst, hzs, hmax, hbig, hbuf, hsmall, hkeys, ?_, ?_, hdt, hds, ⟨hkn.1, by simp⟩, hul⟩
        · dsimp only
          rw [T.total]
          exact wrote_zeros dbs _
        · refine hpend.same rfl rfl rfl ?_ rfl
          rcases hi1 with hi1 | hi1
          · exact hi1.symm
          · cases hi1
    by_cases hpos : getSize z > 0
    · rw [if_pos hpos] at h1
      simp only [Option.map_map, Option.map_eq_some_iff] at h1
      obtain ⟨blk, hblk, h1⟩ := h1
      obtain ⟨m, d', u1, -, u2⟩ := flush h hpos hblk
      simp only [Function.comp_apply, Prod.mk.injEq] at h1
      obtain ⟨rfl, rfl⟩ := h1
      refine ⟨dec, d', _, [], [], mem', unz', feed_one u1, ?_, by simp, .nil, hf⟩
      cases init with
      | false =>
        have := key _ d' [] mem' unz' (u2 0 (.inl rfl)) rfl (.inr rfl) rfl rfl rfl
        simpa using this
      | true =>
        have := key _ d' [] mem' unz' (u2 1 (.inr rfl)) rfl (.inl rfl) rfl rfl rfl
        simpa [next] using this
    · rw [if_neg hpos] at h1
      simp only [Option.map_some, Option.some.injEq, Prod.mk.injEq] at h1
      obtain ⟨rfl, rfl⟩ := h1
      obtain ⟨⟨ke, T⟩, hst, hzs, hmax, hbig, hbuf, hsmall, hkeys, hw, hpend, hdt, hds, hkn, hul⟩ := h
      cases hpend with
      | some e1 e2 e3 e4 e5 e6 => exact absurd e6 (by omega)
      | none e1 e2 e3 e4 =>
        refine ⟨[], d, _, [], [], d.mem, d.unz, rfl, ?_, by simp, .nil, hf⟩
        cases init with
        | false => exact ⟨⟨ke, T⟩, hst, hzs, hmax, hbig, hbuf, hsmall, hkeys, hw, .none e1 e2 e3 e4, hdt, hds, hkn, hul⟩
        | true =>
          rw [if_pos rfl, if_pos rfl]
          refine ⟨⟨ke, T.same rfl rfl rfl rfl⟩, hst, hzs, hmax, hbig, hbuf, hsmall, hkeys, ?_, .none e1 e2 e3 (.inr rfl), hdt, hds, ⟨hkn.1, by simp⟩, hul⟩
          dsimp only
          rw [T.total]
          exact wrote_zeros dbs _
  | step k s src =>
    simp only [does] at hd
    have hneg : ∀ z2 : Z, z2 = z → bs = [] → n ≤ 0 → z' = z → ∃ out d' p' dec' new mem2 unz2, feed d bs = some (out, d') ∧ Sim dbs xs kd zs z' d' p' dec' mem2 unz2 ∧ out ++ dec' = dec ++ new ∧
        SameRecs dbs new (sent dbs [⟨.step k s src, n, bs, getSize z'⟩]) ∧ Flow dbs p' evs := by
      intro z2 _ hbs hn hz
      subst hbs
      subst hz
      refine ⟨[], d, p, dec, [], mem', unz', rfl, h, by simp, ?_, ?_⟩
      · unfold sent
        rw [if_neg (by omega)]
        exact .nil
      · unfold Flow at hf
        rw [if_neg (by omega)] at hf
        exact hf
    unfold step at hd
    rw [if_neg (by rw [h.status]; decide)] at hd
    split at hd
    · cases hd
      exact hneg z rfl rfl (by omega) rfl
    rename_i t ht
    split at ht
    · cases ht
    rename_i hs0
    split at hd
    · cases hd
    rename_i hk0
    obtain ⟨ke, T⟩ := h.tabs
    have hslt : s.toNat < dbs.length := by rw [← T.len]; exact (List.getElem?_eq_some_iff.1 ht).1
    obtain ⟨db, hdb⟩ : ∃ db, dbs[s.toNat]? = some db := ⟨_, List.getElem?_eq_getElem hslt⟩
    have htt := T.tab _ db hdb
    rw [ht] at htt
    cases htt
    have hp := hpl db (List.mem_of_getElem? hdb)
    have hsz1 := (made_size hp.1).1
    unfold curMem at hd
    split at hd
    · cases hd
      exact hneg z rfl rfl (by omega) rfl
    rename_i b hb
    split at hb
    case isFalse => cases hb
    rename_i hkk
    have hb := (Option.some.inj hb).symm
    subst hb
    dsimp only at hd
    split at hd
    · cases hd
      exact hneg z rfl rfl (by omega) rfl
    rename_i hmod
    split at hd
    · cases hd
    rename_i hbig
    split at hd
    · cases hd
      exact hneg z rfl rfl (by omega) rfl
    rename_i hfits
    simp only [Option.bind_eq_some_iff, Option.map_eq_some_iff] at hd
    obtain ⟨⟨bs1, z1⟩, h1, z2, h2, h3⟩ := hd
    dsimp only at h2 h3
    cases h3
    have hn0 : (0 : Int) < z'.bags := by
      have : z'.bags = z1.bags + 1 := by
        unfold bag at h2
        simp only [Option.bind_eq_some_iff, Option.map_eq_some_iff] at h2
        obtain ⟨_, _, _, _, ⟨_, _⟩, _, ⟨_, _⟩, _, rfl⟩ := h2
        rfl
      omega
    have hkd : k.toNat < kd := by
      have := hk k s src rfl hn0
      omega
    have hrec : recsOf dbs s.toNat src = pieces db.size src := by unfold recsOf; rw [hdb]
    unfold Flow at hf
    rw [if_pos hn0, hrec] at hf
    have hrl : (pieces db.size src).length < 2 ^ 31 := by
      rw [pieces_length]
      have := Nat.div_le_self src.length db.size
      omega
    have fin : ∀ d1 dec1 mem1 unz1 out, Sim dbs xs kd zs z1 d1 p dec1 mem1 unz1 → feed d bs = some (out, d1) → out ++ dec1 = dec → z1.keys = z.keys → z1.sum = z.sum →
        ∃ out d' p' dec' new mem2 unz2, feed d bs = some (out, d') ∧ Sim dbs xs kd zs z' d' p' dec' mem2 unz2 ∧ out ++ dec' = dec ++ new ∧
        SameRecs dbs new (sent dbs [⟨.step k s src, (z'.bags : Int), bs, getSize z'⟩]) ∧ Flow dbs p' evs := by
      intro d1 dec1 mem1 unz1 out hs1 hf1 ho hkeys hsum
      obtain ⟨g0, dec2, mem2, unz2, g1, g2⟩ := sim_bag hpl hs1 hdb (by rw [hkeys]; exact hkk) hkd hrl (fun i r hi => pieces_elem hi) hf.1
        (by rw [pieces_length, hsum]; exact h2) hsz
      refine ⟨out, d1, _, dec1 ++ dec2, dec2, mem2, unz2, hf1, g1, by rw [← ho, List.append_assoc], ?_, hf.2⟩
      unfold sent
      rw [if_pos hn0, hrec]
      have := g2.append (SameRecs.nil (dbs := dbs))
      rwa [List.append_nil] at this
    split at h1
    · simp only [Option.map_eq_some_iff] at h1
      obtain ⟨blk, hblk, h1⟩ := h1
      have hpos : getSize z > 0 := by omega
      obtain ⟨m, d', u1, -, u2⟩ := flush h hpos hblk
      cases h1
      exact fin d' [] mem' unz' dec (u2 0 (.inl rfl)) (feed_one u1) (by simp) rfl rfl
    · cases h1
      exact fin d dec mem' unz' [] h rfl (by simp) rfl rfl

theorem sent_cons (dbs : List Dyn.Db) (e : Ev) (evs : List Ev) : sent dbs (e :: evs) = sent dbs [e] ++ sent dbs evs := by
  obtain ⟨op, n, bs, sz⟩ := e
  cases op <;> simp [sent]

/-- A history. -/
theorem sim_run {dbs xs : List Dyn.Db} (hpl : ∀ db ∈ dbs, Plain db) {kd zs : Nat} : ∀ {z z' : Z} {evs : List Ev}, Run z evs z' → ∀ {d : Z} {p : Last} {dec : List Rec} {mem' unz' : Bytes} {more : List Ev},
    Sim dbs xs kd zs z d p dec mem' unz' → (∀ e ∈ evs, e.size ≤ zs) → (∀ e ∈ evs, ∀ k s src, e.op = .step k s src → 0 < e.ret → k < kd) → Flow dbs p (evs ++ more) →
    ∃ out d' p' dec' new mem2 unz2, feed d (evs.map Ev.blocks).flatten = some (out, d') ∧ Sim dbs xs kd zs z' d' p' dec' mem2 unz2 ∧ out ++ dec' = dec ++ new ∧
      SameRecs dbs new (sent dbs evs) ∧ Flow dbs p' more := by
  intro z z' evs hr
  induction hr with
  | nil =>
    intro d p dec mem' unz' more h _ _ hf
    exact ⟨[], d, p, dec, [], mem', unz', rfl, h, by simp, .nil, hf⟩
  | @cons z z1 z2 op n bs evs hd _ ih =>
    intro d p dec mem' unz' more h hsz hk hf
    obtain ⟨out, d1, p1, dec1, new, mem1, unz1, e1, e2, e3, e4, e5⟩ := sim_op hpl h hd (hsz ⟨op, n, bs, getSize z1⟩ (by simp)) (fun k s src ho hn => hk ⟨op, n, bs, getSize z1⟩ (by simp) k s src ho hn) hf
    obtain ⟨out', d2, p2, dec2, new', mem2, unz2, f1, f2, f3, f4, f5⟩ := ih e2 (fun e he => hsz e (by simp [he])) (fun e he => hk e (by simp [he])) e5
    refine ⟨out ++ out', d2, p2, dec2, new ++ new', mem2, unz2, ?_, f2, ?_, ?_, f5⟩
    · rw [List.map_cons, List.flatten_cons, feed_append e1, f1]
      rfl
    · rw [List.append_assoc, f3, ← List.append_assoc, e3, List.append_assoc]
    · rw [sent_cons]
      exact e4.append f4

/-- The start of both sides. -/
theorem sim_start1 {dbs xs : List Dyn.Db} {ke kd : Nat} {z0 z1 d1 : Z} {m : Int} (hz : Ready dbs ke z0) (h : start z0 m = some (0, z1)) (T' : Tabs (dbs ++ xs) kd d1) (hst : d1.status = 11)
    (hmem : d1.mem.length = kd * total (dbs ++ xs)) (hunz : d1.unz.length = d1.maxdb) : Sim dbs xs kd (if m < 16384 then 16384 else m.toNat) z1 d1 (fun _ _ => none) [] d1.mem d1.unz := by
  obtain ⟨T, hb1, hb2, hb3⟩ := hz.facts
  unfold start at h
  split at h
  · cases h
  dsimp only at h
  obtain ⟨zs, hzs, hbig⟩ : ∃ zs : Nat, (if m < 16384 then 16384 else m.toNat) = zs ∧ 1 ≤ zs := ⟨_, rfl, by split <;> omega⟩
  rw [hzs] at h ⊢
  split at h
  · cases h
  rename_i hc
  cases h
  refine ⟨⟨ke, T.same rfl rfl rfl rfl⟩, rfl, rfl, rfl, hbig, by simp only [List.length_replicate]; omega, by omega, by dsimp only; omega, ?_, .none hb1 hb2 rfl (.inr rfl), T', hst, ⟨hmem, by simp⟩, hunz⟩
  dsimp only
  rw [T.total]
  exact wrote_zeros dbs _

theorem sim_start {dbs xs : List Dyn.Db} {ke kd : Nat} {z0 z1 d0 d1 : Z} {m : Int} {fresh : Bytes} (hz : Ready dbs ke z0) (h : start z0 m = some (0, z1)) (hd : Ready (dbs ++ xs) kd d0)
    (hu : unStart d0 fresh = some (0, d1)) : Sim dbs xs kd (if m < 16384 then 16384 else m.toNat) z1 d1 (fun _ _ => none) [] d1.mem d1.unz := by
  obtain ⟨T', -⟩ := hd.facts
  unfold unStart at hu
  split at hu
  · cases hu
  split at hu
  · cases hu
  rename_i hc'
  cases hu
  refine sim_start1 hz h (T'.same rfl rfl rfl rfl) rfl ?_ ?_
  · dsimp only
    rw [List.length_replicate, T'.total, T'.keys]
  · dsimp only
    omega

end Sis.Zip
