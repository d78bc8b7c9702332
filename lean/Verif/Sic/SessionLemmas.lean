import Verif.Sic.PutLemmas
import Verif.Sno.IndexLemmas
/- Lemmas on files of compressed records: the calls of a session, closing and opening. -/
namespace Sis.Sic
open Sis Sis.Disk Sis.Sdb
open Sis.Sno (Rec More EndOk inv_body addName spell foldb find_same addName_eq spell_eq getTab_view)
open Sis.Dyn (sameN getN setN Db getN_some sameN_refl)

/-! ### Bytes are only added -/

theorem step_grow {lib : Lib} {v : Time.Env} {limit : Nat} {f f' : File} {x : Cmd} (h : step lib v limit f x = some f') : ∃ y, f'.c.body = f.c.body ++ y := by
  cases x with
  | keys s =>
    rw [← Option.some.inj h]
    unfold setKeys
    split
    · exact ⟨[], by simp⟩
    · obtain ⟨x, hx⟩ := writeKeys_grow lib ((splitNames s).foldl setKey f.c)
      exact ⟨x, by show (writeKeys lib ((splitNames s).foldl setKey f.c)).body = _; rw [hx, setKeys_body]⟩
  | tabs ts =>
    rw [← Option.some.inj h]
    obtain ⟨x, hx⟩ := writeTabs_grow lib (ts.foldl setTab f.c)
    have hb : ∀ (ts : List Tab) (c : Ctl), (ts.foldl setTab c).body = c.body := by
      intro ts
      induction ts with
      | nil => intro c; rfl
      | cons t ts ih => intro c; rw [List.foldl_cons, ih, setTab_body]
    exact ⟨x, by show (writeTabs lib (ts.foldl setTab f.c)).body = _; rw [hx, hb]⟩
  | start =>
    simp only [step, start] at h
    obtain ⟨z, _, h⟩ := Option.bind_eq_some_iff.1 h
    obtain ⟨⟨r, z'⟩, _, h⟩ := Option.map_eq_some_iff.1 h
    obtain ⟨x, hx⟩ := writeKeys_grow lib f.c
    obtain ⟨y, hy⟩ := writeTabs_grow lib (writeKeys lib f.c)
    exact ⟨x ++ y, by rw [← h]; show (writeTabs lib (writeKeys lib f.c)).body = _; rw [hy, hx, List.append_assoc]⟩
  | put k s d =>
    simp only [step, put] at h
    split at h
    · rw [← Option.some.inj h]; exact ⟨[], by simp⟩
    · obtain ⟨f1, h1, h⟩ := Option.bind_eq_some_iff.1 h
      obtain ⟨k', _, h⟩ := Option.bind_eq_some_iff.1 h
      obtain ⟨y, hy⟩ := ioWrite_grow h
      rw [hy]
      split at h1
      · cases h1; exact ⟨y, rfl⟩
      · obtain ⟨z, _, h1⟩ := Option.bind_eq_some_iff.1 h1
        obtain ⟨⟨r, z'⟩, _, h1⟩ := Option.map_eq_some_iff.1 h1
        obtain ⟨x, hx⟩ := writeKeys_grow lib (setKey f.c k)
        exact ⟨x ++ y, by rw [← h1]; show (writeKeys lib (setKey f.c k)).body ++ y = _; rw [hx, setKey_body, List.append_assoc]⟩
  | stop =>
    simp only [step, stop] at h
    obtain ⟨z, _, h⟩ := Option.bind_eq_some_iff.1 h
    obtain ⟨⟨B, z'⟩, _, h⟩ := Option.map_eq_some_iff.1 h
    obtain ⟨m, hm⟩ := putBlocks_eq B f
    rw [← h]
    refine ⟨?_, ?_⟩
    rotate_left
    · show (putBlocks f B).c.body = _
      rw [hm]

theorem steps_grow {lib : Lib} {v : Time.Env} {limit : Nat} (cs : List Cmd) : ∀ {f f' : File}, cs.foldlM (step lib v limit) f = some f' → ∃ y, f'.c.body = f.c.body ++ y := by
  induction cs with
  | nil => intro f f' h; rw [← Option.some.inj (show some f = some f' by simpa using h)]; exact ⟨[], by simp⟩
  | cons c cs ih =>
    intro f f' h
    rw [List.foldlM_cons] at h
    obtain ⟨f1, h1, h2⟩ := Option.bind_eq_some_iff.1 h
    obtain ⟨x, hx⟩ := step_grow h1
    obtain ⟨y, hy⟩ := ih h2
    exact ⟨x ++ y, by rw [hy, hx, List.append_assoc]⟩

/-! ### The calls -/

theorem getTab_sdOf {ts : List (Bytes × Db)} (hd : ts.Pairwise fun a b => sameN a.1 b.1 = false) (s : Bytes) :
    (getTab (sdOf ts) s = none → ts.find? (fun t => fold t.1 == fold s) = none) ∧
    ∀ s' dbs i, getTab (sdOf ts) s = some ((s', dbs), i) → ∃ db, ts[i]? = some (s', db) ∧ dbs = [db] ∧ ts.find? (fun t => fold t.1 == fold s) = some (s', db) := by
  have hd' : (sdOf ts).Pairwise fun a b => sameN a.1 b.1 = false := by unfold sdOf; rw [List.pairwise_map]; exact hd
  obtain ⟨v1, v2⟩ := getTab_view hd' s
  constructor
  · intro h
    have := v1 h
    rw [view_sdOf, List.find?_map, Option.map_eq_none_iff] at this
    exact this
  · intro s' dbs i h
    obtain ⟨w1, w2, _⟩ := v2 s' dbs i h
    unfold sdOf at w1
    rw [List.getElem?_map] at w1
    obtain ⟨⟨s2, db⟩, hx, hx2⟩ := Option.map_eq_some_iff.1 w1
    simp only [Prod.mk.injEq] at hx2
    obtain ⟨rfl, rfl⟩ := hx2
    refine ⟨db, hx, rfl, ?_⟩
    have := find_same hd (List.mem_of_getElem? hx) w2
    rw [← this]
    congr 1
    funext x
    exact foldb _ _

theorem find_any {ts : List (Bytes × Db)} {s : Bytes} : ts.any (fun t => fold t.1 == fold s) = (ts.find? (fun t => fold t.1 == fold s)).isSome := by
  rw [Bool.eq_iff_iff, List.any_eq_true, List.find?_isSome]

theorem step_ok {lib : Lib} {P : Db → Prop} (T : TextOk lib P) {v : Time.Env} {limit : Nat} {a : Abs} {f f' : File} {bs : List (UInt8 × Bytes)} {rs : List Zip.Rec}
    (h : St lib P a f bs rs) {x : Sno.Act} (hx : Allowed P a x) (hs : step lib v limit f (cmd x) = some f') (hb : f'.c.body.length + 64 < 2 ^ 31) :
    ∃ bs' rs', St lib P (a.act x) f' bs' rs' := by
  have hmh : mainHead ≤ 64 := by decide
  cases x with
  | keys ks =>
    have hs := Option.some.inj hs
    obtain ⟨hn, hx⟩ := hx
    have hg : ∀ k ∈ ks, GoodKey k := fun k hk => goodKey (hx k hk).1
    replace hs : setKeys lib f (List.intercalate [44] ks) = f' := hs
    simp only [setKeys, join_eq] at hs
    by_cases hks : ks = []
    · subst hks
      have e : joinNames [] = [] := rfl
      rw [if_pos e] at hs
      rw [← hs]
      exact ⟨bs, rs, h⟩
    · rw [if_neg (joinNames_ne hks hg), splitNames_join _ hg] at hs
      subst hs
      obtain ⟨bs', h'⟩ := idle_keys h hn hg (by simp only at hb; omega)
      exact ⟨bs', rs, h'⟩
  | tabs ts =>
    have hs := Option.some.inj hs
    replace hs : setTabs lib f ts = f' := hs
    simp only [setTabs] at hs
    subst hs
    obtain ⟨h1, h2, h3⟩ := hx
    obtain ⟨bs', h'⟩ := idle_tabs T h h1 (fun t ht => ⟨goodTab (h2 t ht).1, (h2 t ht).2.2.1, (h2 t ht).2.2.2.1, (h2 t ht).2.2.2.2.1⟩) h3 (fun t ht => (h2 t ht).2.2.2.2.2)
      (by simp only at hb; omega)
    exact ⟨bs', rs, h'⟩
  | start => exact ⟨bs, rs, start_ok h hx.1 hx.2 hs⟩
  | put k s d =>
    obtain ⟨h1, h2, h3, now, h4, h5⟩ := hx
    simp only [cmd, step, put, h.base.tabs] at hs
    obtain ⟨v1, v2⟩ := getTab_sdOf h.base.tdiff s
    cases hg : getTab (sdOf a.tabs) s with
    | none =>
      rw [hg] at hs
      simp only [Option.some.injEq] at hs
      subst hs
      have : a.act (.put k s d) = a := by
        have e := v1 hg
        simp only [Abs.act, Abs.brings, find_any, e]
        simp
      rw [this]
      exact ⟨bs, rs, h⟩
    | some t =>
      obtain ⟨⟨s', dbs⟩, si⟩ := t
      rw [hg] at hs
      obtain ⟨db, w1, w2, w3⟩ := v2 s' dbs si hg
      subst w2
      simp only at hs
      obtain ⟨f1, hf1, hs⟩ := Option.bind_eq_some_iff.1 hs
      obtain ⟨⟨k', ki⟩, hk', hs⟩ := Option.bind_eq_some_iff.1 hs
      have hgood := goodKey h1
      obtain ⟨y, hy⟩ := ioWrite_grow hs
      have hlen : f1.c.body.length + 64 < 2 ^ 31 := by
        rw [hy, List.length_append] at hb
        omega
      have hst : ∃ bs1, St lib P { a with keys := addName a.keys k } f1 bs1 rs := by
        by_cases hsome : (getKey f.c.kd k).isSome = true
        · rw [if_pos hsome] at hf1
          cases hf1
          refine ⟨bs, ?_⟩
          rw [← h.base.keys, addName_eq, if_pos hsome, h.base.keys]
          exact h
        · rw [if_neg hsome] at hf1
          obtain ⟨z, hz, hf1⟩ := Option.bind_eq_some_iff.1 hf1
          obtain ⟨⟨r, z'⟩, ha, hf1⟩ := Option.map_eq_some_iff.1 hf1
          simp only at hf1
          subst hf1
          exact busy_key h hz ha hgood (by simpa using hsome) (by simp only at hlen; omega)
      obtain ⟨bs1, hst⟩ := hst
      have hkeys : f1.c.kd = addName a.keys k := hst.base.keys
      have hsp : spell (addName a.keys k) k = k' := by
        rw [← hkeys]
        exact spell_eq hst.base.inv.kdiff hk'
      have hbr : a.brings k s d = if d.length % db.size = 0 then (records db.size (d.length / db.size) d).map fun r => ⟨k', s', r⟩ else [] := by
        simp only [Abs.brings, w3, hsp]
      obtain ⟨bs2, rs2, h2⟩ := ioWrite_ok (v := v) (limit := limit) hst (ki := ki) (si := si) (k := k') (t := (s', db)) (by
        show (addName a.keys k)[ki]? = some k'
        rw [← hkeys]; exact (getKey_some hk').2.2) w1 h4 hbr h5 hs (by omega)
      have hact : a.act (.put k s d) = { a with keys := addName a.keys k, recs := a.recs ++ a.brings k s d, now := some (now ++ a.brings k s d) } := by
        simp only [Abs.act, find_any, w3, h4]
        rfl
      rw [hact]
      exact ⟨bs2, rs2, h2⟩
  | stop =>
    obtain ⟨bs', h'⟩ := stop_ok h hs (by omega)
    exact ⟨bs', rs, h'⟩

theorem steps_ok {lib : Lib} {P : Db → Prop} (T : TextOk lib P) {v : Time.Env} {limit : Nat} (as : List Sno.Act) : ∀ {a : Abs} {f f' : File} {bs : List (UInt8 × Bytes)} {rs : List Zip.Rec},
    St lib P a f bs rs → (∀ (pre : List Sno.Act) (x : Sno.Act) (post : List Sno.Act), as = pre ++ x :: post → Allowed P (a.acts pre) x) →
    (as.map cmd).foldlM (step lib v limit) f = some f' → f'.c.body.length + 64 < 2 ^ 31 → ∃ bs' rs', St lib P (a.acts as) f' bs' rs' := by
  induction as with
  | nil =>
    intro a f f' bs rs h _ hs _
    rw [← Option.some.inj (show some f = some f' by simpa using hs)]
    exact ⟨bs, rs, h⟩
  | cons x as ih =>
    intro a f f' bs rs h hal hs hb
    rw [List.map_cons, List.foldlM_cons] at hs
    obtain ⟨f1, h1, h2⟩ := Option.bind_eq_some_iff.1 hs
    obtain ⟨y, hy⟩ := steps_grow _ h2
    obtain ⟨bs1, rs1, g1⟩ := step_ok T h (hal [] x as rfl) h1 (by rw [hy, List.length_append] at hb; omega)
    exact ih g1 (fun pre z post he => hal (x :: pre) z post (by rw [he]; rfl)) h2 hb

/-! ### A new file -/

theorem st_new (lib : Lib) (P : Db → Prop) : St lib P {} {} [] [] := by
  refine ⟨⟨⟨rfl, List.Pairwise.nil, ⟨[], rfl, rfl⟩, ⟨[], rfl, rfl⟩, List.Pairwise.nil, ?_, List.Pairwise.nil, ?_, ?_, ?_, ?_, ?_, ?_, fun _ _ h => by cases h⟩, rfl, rfl, rfl, rfl, ?_, rfl, Nat.le_refl _, Nat.le_refl _,
    Nat.le_refl _, Nat.le_refl _, ?_, Nat.le_refl _, by show (0 : Nat) < 2 ^ 64; omega, rfl, ?_⟩, rfl, ?_, fun _ => rfl, fun _ => ⟨rfl, Plays.nil _ _⟩, (by intro z e; cases e)⟩
  all_goals (intro x h; cases h)

/-! ### Closing and opening -/

theorem unzip_plain {lib : Lib} {hid : Nat} (hh : hid < 32) (d : Bytes) : hidOf (headByte 1 0 hid) = hid ∧ Sno.unzipIdx lib (headByte 1 0 hid, d) = d := by
  refine ⟨hidOf_head (by omega) hh, ?_⟩
  unfold Sno.unzipIdx
  simp only [zipOf_head (show (0 : Nat) ≤ 1 by omega) hh]
  rw [if_pos trivial]

theorem decIdx_append (lib : Lib) (body : Bytes) (as : List (UInt8 × Bytes)) : ∀ (bs : List (UInt8 × Bytes)) (r : Rd),
    decIdx lib body r (as ++ bs) = (decIdx lib body r as).bind fun r => decIdx lib body r bs := by
  induction as with
  | nil => intro bs r; rfl
  | cons a as ih =>
    intro bs r
    simp only [List.cons_append, decIdx]
    cases decBlock lib body r a with
    | none => rfl
    | some r => simp only [Option.bind_some]; exact ih bs r

theorem idx_back {lib : Lib} {body : Bytes} {kd : List Bytes} {sd : TDict} {idx : Idx} {news : List IUnit} (h : IdxOk lib body kd sd idx) (hd : data idx = [])
    (he : ∀ u ∈ news, EndOk u) (hc : news.length < 2 ^ 31) :
    (∀ b ∈ encIdx idx news, hidOf b.1 ≠ 0 ∧ hidOf b.1 ≠ 31) ∧
      ∃ r, decIdx lib body {} (encIdx idx news) = some r ∧ r.r = ⟨kd, sd, dictNode idx signKeys ++ dictNode idx signTabs ++ data idx⟩ ∧
        (∀ u ∈ r.news, EndOk u) ∧ r.news.length ≤ news.length := by
  have hasc : ∀ n, n < 2 ^ 31 → asCount n = n := by
    intro n hn; unfold asCount; rw [Nat.mod_eq_of_lt (by omega), if_pos hn]
  have hrefs : ∀ us : List IUnit, us.length < 2 ^ 31 → (∀ u ∈ us, InRange u) → getSsize (encRefs us) = some (us.length, us.flatMap encRef) ∧
      decRefs us.length (us.flatMap encRef) = some (us.map bare, []) := by
    intro us h1 h2
    refine ⟨C01_ssize_roundtrip _ (by omega) _, ?_⟩
    have := decRefs_enc us h2 []
    simpa using this
  unfold encIdx
  refine ⟨?_, ?_⟩
  · intro b hb
    simp only [List.mem_append] at hb
    rcases hb with (hb | hb) | hb
    · split at hb
      · rw [List.mem_singleton.1 hb]; dsimp only; decide
      · cases hb
    · split at hb
      · rw [List.mem_singleton.1 hb]; dsimp only; decide
      · cases hb
    · split at hb
      · cases hb
      · rw [List.mem_singleton.1 hb]; dsimp only; decide
  · have h1 : ∃ r, decIdx lib body {} (match getN idx signKeys with
        | some n => [(headByte 1 0 hidIdxKeys, encRefs n.units)]
        | none => []) = some r ∧ r.r = ⟨kd, [], dictNode idx signKeys⟩ ∧ r.news = [] := by
      have hk := h.keys
      have hc := h.kcount
      have hu := h.kunits
      unfold dictUnits at hk hc hu
      unfold dictNode
      cases hg : getN idx signKeys with
      | none => rw [hg] at hk; simp [readKeys] at hk; exact ⟨{}, rfl, by simp [hk], rfl⟩
      | some n =>
        rw [hg] at hk hc hu
        simp only [Option.map_some, Option.getD_some] at hk hc hu
        obtain ⟨e1, e2⟩ := hrefs n.units hc hu
        simp only [decIdx, decBlock]
        rw [(unzip_plain (lib := lib) (show hidIdxKeys < 32 by decide) (encRefs n.units)).1, (unzip_plain (lib := lib) (show hidIdxKeys < 32 by decide) (encRefs n.units)).2, if_pos rfl, e1]
        simp only [Option.bind_some]
        rw [hasc _ hc, e2]
        simp only [Option.bind_some, readKeys_bare, hk, Option.map_some]
        exact ⟨_, rfl, rfl, rfl⟩
    obtain ⟨r1, d1, e1, n1⟩ := h1
    have h2 : ∃ r, decIdx lib body r1 (match getN idx signTabs with
        | some n => [(headByte 1 0 hidIdxTabs, encRefs n.units)]
        | none => []) = some r ∧ r.r = ⟨kd, sd, dictNode idx signKeys ++ dictNode idx signTabs⟩ ∧ r.news = [] := by
      have hk := h.tabs
      have hc := h.tcount
      have hu := h.tunits
      unfold dictUnits at hk hc hu
      cases hg : getN idx signTabs with
      | none =>
        rw [hg] at hk
        simp [readTabs] at hk
        exact ⟨r1, rfl, by rw [e1]; simp [hk, dictNode, hg], n1⟩
      | some n =>
        rw [hg] at hk hc hu
        simp only [Option.map_some, Option.getD_some] at hk hc hu
        obtain ⟨g1, g2⟩ := hrefs n.units hc hu
        simp only [decIdx, decBlock]
        rw [(unzip_plain (lib := lib) (show hidIdxTabs < 32 by decide) (encRefs n.units)).1, (unzip_plain (lib := lib) (show hidIdxTabs < 32 by decide) (encRefs n.units)).2,
          if_neg (by decide), if_pos rfl, g1]
        simp only [Option.bind_some]
        rw [hasc _ hc, g2]
        simp only [Option.bind_some, readTabs_bare, e1, hk, Option.map_some]
        refine ⟨_, rfl, ?_, n1⟩
        simp only
        congr 1
        unfold dictNode
        rw [hg]
        cases getN idx signKeys <;> rfl
    obtain ⟨r2, d2, e2, n2⟩ := h2
    have h3 : ∃ r, decIdx lib body r2 (if news = [] then [] else [(headByte 1 0 hidIdxNew, Sno.encEnds news)]) = some r ∧ r.r = r2.r ∧
        (∀ u ∈ r.news, EndOk u) ∧ r.news.length ≤ news.length := by
      by_cases hn : news = []
      · rw [if_pos hn]
        exact ⟨r2, rfl, rfl, by rw [n2]; simp, by rw [n2]; simp⟩
      · rw [if_neg hn]
        have g1 : getSsize (Sno.encEnds news) = some (news.length, news.flatMap fun u => encRef u ++ catSsize u.start) := C01_ssize_roundtrip _ (by omega) _
        have g2 := Sno.decStops_enc news he []
        rw [List.append_nil] at g2
        simp only [decIdx, decBlock]
        rw [(unzip_plain (lib := lib) (show hidIdxNew < 32 by decide) (Sno.encEnds news)).1, (unzip_plain (lib := lib) (show hidIdxNew < 32 by decide) (Sno.encEnds news)).2,
          if_neg (by decide), if_neg (by decide), if_pos rfl, g1]
        simp only [Option.bind_some]
        rw [hasc _ hc, g2]
        simp only [Option.map_some, Option.bind_some]
        refine ⟨_, rfl, rfl, ?_, by simp⟩
        intro u hu
        obtain ⟨v, hv, rfl⟩ := List.mem_map.1 hu
        exact ⟨(he v hv).fidx, (he v hv).offset, (he v hv).size, (he v hv).start⟩
    obtain ⟨r3, d3, e3, n3, l3⟩ := h3
    refine ⟨r3, ?_, by rw [e3, e2, hd, List.append_nil], n3, l3⟩
    rw [decIdx_append, decIdx_append]
    exact Option.bind_eq_some_iff.2 ⟨r2, Option.bind_eq_some_iff.2 ⟨r1, d1, d2⟩, d3⟩

theorem open_ok {lib : Lib} {P : Db → Prop} {a : Abs} {f : File} {bs : List (UInt8 × Bytes)} {rs : List Zip.Rec} (h : St lib P a f bs rs) (hn : a.now = none)
    {file : Bytes × Bytes} (hc : close f = some file) (hm : Moderate file) : ∃ f', openFile lib file = some f' ∧ St lib P a f' bs rs ∧ f'.c.body = file.1 := by
  unfold close at hc
  split at hc
  · cases hc
  have hfile : file = (f.c.body, idxFile (encIdx f.c.idx f.news)) := (Option.some.inj hc).symm
  have hbody : f.c.body.length + 64 < 2 ^ 31 := by have := hm.body; rw [hfile] at this; exact this
  have hb := h.base
  have hcnt : ∀ e ∈ data f.c.idx, e.2.units.length < 2 ^ 31 := by
    intro e he
    rw [hb.idx] at he
    cases he
  have hdu : ∀ sign, (sign = signKeys ∨ sign = signTabs) → (dictUnits f.c.idx sign).length < 2 ^ 31 := by
    intro sign hsg
    have := hb.kcnt
    have := hb.scnt
    rcases hsg with rfl | rfl <;> omega
  have hiok := inv_idxOk hb.inv hb.newk hb.news hcnt hdu
  obtain ⟨e2, r, r1, r2, r4, r5⟩ := idx_back hiok hb.idx hb.ends (by have := hb.ecnt; omega)
  generalize hbs' : encIdx f.c.idx f.news = ibs at *
  have hidx : Readable (idxFile ibs) := by
    have := hm.idx
    rw [hfile] at this
    exact this
  have hlen : (ibs.flatMap fun b => encRec b.1 b.2).length + 48 < 2 ^ 31 := by
    have : (idxFile ibs).length = (ibs.flatMap fun b => encRec b.1 b.2).length + 48 := by simp [idxFile]
    have h2 := hidx.len
    omega
  have hht : hidOf (headByte 1 0 hidTail) = 31 := by decide
  have hread := readFull_smooth ibs (fun b hb => ⟨(e2 b hb).1, (e2 b hb).2, by have := flatMap_len hb; omega⟩) _ hht (List.replicate 47 0) (by simp) hidx.cut.prefix
  have hopen : openFile lib file = some { c := { kind := .date, body := f.c.body, kd := r.r.kd, sd := r.r.sd, idx := r.r.idx }, news := r.news } := by
    unfold openFile readIdx
    rw [hfile]
    simp only
    unfold idxFile
    rw [hread]
    simp only [Option.bind_some, r1, Option.map_some]
  obtain ⟨g1, g2, g3, g4⟩ := inv_reload hb.inv hb.newk hb.news
  refine ⟨_, hopen, ?_, by rw [hfile]⟩
  have hc' : ({ kind := .date, body := f.c.body, kd := r.r.kd, sd := r.r.sd, idx := r.r.idx } : Ctl) = { reload f.c with kind := .date } := by
    rw [r2]; rfl
  rw [hc']
  refine ⟨⟨Sno.inv_kind g1 (fun e he => by rw [g3, hb.idx] at he; cases he), rfl, rfl, hb.keys, hb.tabs, hb.plain, by show data (reload f.c).idx = []; rw [g3]; exact hb.idx, hb.knum, hb.snum, ?_, ?_, r4, Nat.le_trans r5 hb.ecnt,
    by show (0 : Nat) < 2 ^ 64; omega, hb.body, hb.blocks⟩, h.recs, h.rng, h.empty, fun _ => h.idle (h.none hn), (by intro z e; cases e)⟩
  · show (dictUnits (reload f.c).idx signKeys).length ≤ f.c.body.length
    rw [g4 _ (.inl rfl), List.length_map]
    exact hb.kcnt
  · show (dictUnits (reload f.c).idx signTabs).length ≤ f.c.body.length
    rw [g4 _ (.inr rfl), List.length_map]
    exact hb.scnt

/-- A file used in sessions is opened with what it should have. -/
theorem hist_ok {lib : Lib} {P : Db → Prop} (T : TextOk lib P) {v : Time.Env} {limit : Nat} {old : Option (Bytes × Bytes)} {a : Abs} (h : Hist lib v P limit old a) :
    a.now = none ∧ (old = none → a = {}) ∧ ∀ file, old = some file → ∃ f bs rs, openFile lib file = some f ∧ St lib P a f bs rs ∧ f.c.body = file.1 ∧ Moderate file := by
  induction h with
  | new => exact ⟨rfl, fun _ => rfl, by intro f e; cases e⟩
  | @session old a hh as new s ih =>
    refine ⟨s.stopped, (by intro e; cases e), ?_⟩
    intro file hfile
    have hfile := Option.some.inj hfile
    subst hfile
    have hrun := s.run
    unfold session at hrun
    obtain ⟨f0, hf0, hrun⟩ := Option.bind_eq_some_iff.1 hrun
    obtain ⟨f1, hf1, hcl⟩ := Option.bind_eq_some_iff.1 hrun
    have hst : ∃ bs rs, St lib P a f0 bs rs := by
      cases old with
      | none =>
        have := ih.2.1 rfl
        subst this
        have hf0 : ({} : File) = f0 := Option.some.inj hf0
        subst hf0
        exact ⟨[], [], st_new lib P⟩
      | some o =>
        obtain ⟨f, bs, rs, g1, g2, _⟩ := ih.2.2 o rfl
        have hf0 : openFile lib o = some f0 := hf0
        rw [g1] at hf0
        rw [← Option.some.inj hf0]
        exact ⟨bs, rs, g2⟩
    obtain ⟨bs, rs, hst⟩ := hst
    have hb1 : f1.c.body.length + 64 < 2 ^ 31 := by
      have := s.size.body
      have e : new.1 = f1.c.body := by
        unfold close at hcl
        split at hcl
        · cases hcl
        · rw [← Option.some.inj hcl]
      rw [← e]; exact this
    obtain ⟨bs1, rs1, hst1⟩ := steps_ok T as hst s.ok hf1 hb1
    obtain ⟨f', g1, g2, g3⟩ := open_ok hst1 s.stopped hcl s.size
    exact ⟨f', bs1, rs1, g1, g2, g3, s.size⟩

theorem acts_names {P : Db → Prop} (as : List Sno.Act) : ∀ {a : Abs}, ((∀ k ∈ a.keys, (0 : UInt8) ∉ k) ∧ ∀ t ∈ a.tabs, (44 : UInt8) ∉ t.1) →
    (∀ (pre : List Sno.Act) (x : Sno.Act) (post : List Sno.Act), as = pre ++ x :: post → Allowed P (a.acts pre) x) →
    (∀ k ∈ (a.acts as).keys, (0 : UInt8) ∉ k) ∧ ∀ t ∈ (a.acts as).tabs, (44 : UInt8) ∉ t.1 := by
  induction as with
  | nil => intro a h _; exact h
  | cons x as ih =>
    intro a h hok
    refine ih (a := a.act x) ?_ fun pre y post he => hok (x :: pre) y post (by rw [he]; rfl)
    have hx := hok [] x as rfl
    cases x with
    | keys ks =>
      refine ⟨fun k hk => ?_, h.2⟩
      rcases Sno.addNames_mem ks hk with hk | hk
      · exact h.1 k hk
      · exact (hx.2 k hk).2
    | tabs ts =>
      refine ⟨h.1, fun t ht => ?_⟩
      rcases addTables_mem ts ht with ht | ⟨t', ht, he⟩
      · exact h.2 t ht
      · rw [he]; exact (hx.2.1 t' ht).2.1
    | start => exact h
    | put k s d =>
      refine ⟨fun k' hk => ?_, h.2⟩
      simp only [Abs.act] at hk
      split at hk
      · rcases Sno.addName_mem hk with hk | hk
        · exact h.1 k' hk
        · rw [hk]; exact hx.2.1
      · exact h.1 k' hk
    | stop => exact h

/-- Names in a file are usual ones. -/
theorem hist_names {lib : Lib} {v : Time.Env} {P : Db → Prop} {limit : Nat} {old : Option (Bytes × Bytes)} {a : Abs} (h : Hist lib v P limit old a) :
    (∀ k ∈ a.keys, (0 : UInt8) ∉ k) ∧ ∀ t ∈ a.tabs, (44 : UInt8) ∉ t.1 := by
  induction h with
  | new => exact ⟨(by intro k h; cases h), (by intro k h; cases h)⟩
  | session hh s ih => exact acts_names _ ih s.ok

end Sis.Sic
