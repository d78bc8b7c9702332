import Verif.Snodb.WsnoRun
import Verif.Sno.SnoTheorems
import Mathlib.Data.List.Forall2
/-
Lemmas: the log of a day, in one or more sections, and the file.
-/
namespace Sis.Wsno
open Sis
open Sis.Sdb (Tab fold)
open Sis.Zip (Z Ready feed SameRecs SameRec)

/-- The worker behind the head of a file. -/
def headed (K T : Bytes) (u : Incr) (day : Nat) (cs : List Sno.Cmd) (files : List (Nat × List Sno.Cmd)) : W := ⟨.head, some K, some T, some u, .on day cs, files⟩

/-- The worker before the head of a file. -/
def openedW (K T : Bytes) (day : Nat) (files : List (Nat × List Sno.Cmd)) : W := ⟨.opened, some K, some T, none, .on day [], files⟩

theorem run_cons (e : Env) (w : W) (c : Call) (cs : List Call) : run e w (c :: cs) = (step e w c).bind fun w => run e w cs := by
  unfold run
  rw [List.foldlM_cons]
  rfl

theorem run_append (e : Env) : ∀ (a b : List Call) (w : W), run e w (a ++ b) = (run e w a).bind fun w => run e w b := by
  intro a
  induction a with
  | nil => intro b w; rfl
  | cons c a ih =>
    intro b w
    rw [List.cons_append, run_cons, run_cons]
    cases step e w c with
    | none => rfl
    | some w1 => simp only [Option.bind_some]; rw [ih]

/-- The head is written with the first packet. -/
theorem opened_run {e : Env} {K T : Bytes} {u : Incr} {day : Nat} {files : List (Nat × List Sno.Cmd)} (hu : unzipOpen e K T = some u) : ∀ {cs : List Call},
    (∀ c ∈ cs, c = .keys K ∨ c = .sdbs T ∨ ∃ b, c = .incr b) → (∃ b, Call.incr b ∈ cs) →
    run e (openedW K T day files) cs = run e (headed K T u day [.keys K, .tabs (e.tabs T), .start] files) cs := by
  intro cs
  induction cs with
  | nil => intro _ h; obtain ⟨b, h⟩ := h; cases h
  | cons c cs ih =>
    intro hc hb
    rw [run_cons, run_cons]
    rcases hc c (by simp) with rfl | rfl | ⟨b, rfl⟩
    · exact ih (fun c h => hc c (by simp [h])) (by obtain ⟨b, hb⟩ := hb; exact ⟨b, by simpa using hb⟩)
    · exact ih (fun c h => hc c (by simp [h])) (by obtain ⟨b, hb⟩ := hb; exact ⟨b, by simpa using hb⟩)
    · congr 1
      simp only [step, openedW, headed, head, hu]
      rfl

theorem SameRecs.app {dbs : List Dyn.Db} {a b c d : List Zip.Rec} (h : SameRecs dbs a b) (h' : SameRecs dbs c d) : SameRecs dbs (a ++ c) (b ++ d) := Zip.SameRecs.append h h'

/-- The sections of a log behind the head. -/
theorem secs_read {e : Env} {ks : List Bytes} {ts : List Tab} {K T : Bytes} (hpos : ∀ t ∈ ts, 0 < t.db.size) {u : Incr}
    (hk : u.keys = ks.map fun k => (k, k)) (ht : u.sdbs = ts.map fun t => (t.name, t)) {day : Nat} {files : List (Nat × List Sno.Cmd)} :
    ∀ {secs : List (List In × List Bytes)}, (∀ x ∈ secs, (∀ r ∈ recs ks.length ts x.1, r.1 < ks.length ∧ r.2.1 < ts.length) ∧ ∀ d, Zip.Dec (ts.map (·.db)) ks.length d →
      ∃ out d', feed d x.2 = some (out, d') ∧ Kept e K T ks.length ts x.1 x.2 out.length ∧ SameRecs (ts.map (·.db)) out ((recs ks.length ts x.1).take out.length)) →
    ∀ {d : Z} {cs : List Sno.Cmd}, Zip.Dec (ts.map (·.db)) ks.length d → ∃ ns puts d', List.Forall₂ (fun x n => Kept e K T ks.length ts x.1 x.2 n) secs ns ∧
      Stored ks ts (List.zipWith (fun x n => (recs ks.length ts x.1).take n) secs ns).flatten puts ∧
      run e (headed K T { u with z := d } day cs files) (secs.flatMap fun x => .keys K :: .sdbs T :: x.2.map .incr) = some (headed K T { u with z := d' } day (cs ++ puts.map fun r => .put r.key r.tab r.data) files) := by
  intro secs
  induction secs with
  | nil =>
    intro _ d cs hd
    exact ⟨[], [], d, .nil, ⟨rfl, by simp⟩, by simp [run]⟩
  | cons x secs ih =>
    intro h d cs hd
    obtain ⟨ins, bs⟩ := x
    have ih := @ih fun x hx => h x (by simp [hx])
    obtain ⟨hn, h⟩ := h _ (List.mem_cons_self ..)
    dsimp only at hn h
    obtain ⟨out, d1, g1, g2, g3⟩ := h d hd
    obtain ⟨p1, g4, g5⟩ := puts_stored hk ht hpos g3 (fun r hr => hn r (List.mem_of_mem_take hr))
    obtain ⟨ns, p2, d2, q1, q2, q3⟩ := ih (d := d1) (cs := cs ++ p1.map fun r => .put r.key r.tab r.data) (dec_feed hd g1)
    refine ⟨out.length :: ns, p1 ++ p2, d2, .cons g2 q1, ?_, ?_⟩
    · rw [List.zipWith_cons_cons, List.flatten_cons]
      dsimp only
      obtain ⟨a1, a2⟩ := g5
      obtain ⟨b1, b2⟩ := q2
      refine ⟨by rw [List.length_append, List.length_append, a1, b1], fun i k s r hi => ?_⟩
      by_cases hlt : i < ((recs ks.length ts ins).take out.length).length
      · rw [List.getElem?_append_left hlt] at hi
        rw [List.getElem?_append_left (by rw [a1]; exact hlt)]
        exact a2 i k s r hi
      · rw [List.getElem?_append_right (by omega)] at hi
        rw [List.getElem?_append_right (by omega), a1]
        exact b2 _ k s r hi
    · rw [List.flatMap_cons, List.cons_append, List.cons_append, run_cons]
      show (run e (headed K T { u with z := d } day cs files) (.sdbs T :: (bs.map .incr ++ _))) = _
      rw [run_cons]
      show (run e (headed K T { u with z := d } day cs files) (bs.map .incr ++ _)) = _
      rw [run_append]
      have := packets_read (e := e) (day := day) (u := u) (K := some K) (T := some T) (files := files) (cs := cs) g1 g4
      unfold headed at q3 ⊢
      rw [this, Option.bind_some, q3, List.append_assoc, List.map_append]

theorem recs_known (nk : Nat) (ts : List Tab) (ins : List In) (hp : ∀ x ∈ ins, Proper x) : ∀ r ∈ recs nk ts ins, r.1 < nk ∧ r.2.1 < ts.length := by
  intro r hr
  unfold recs at hr
  obtain ⟨x, hx, hr⟩ := List.mem_flatMap.1 hr
  cases x with
  | idle => cases hr
  | record k s d =>
    obtain ⟨hk, hs, -⟩ := hp _ hx
    dsimp only at hr
    cases ht : ts[s.toNat]? with
    | none => rw [ht] at hr; cases hr
    | some t =>
      rw [ht] at hr
      dsimp only at hr
      split at hr
      · obtain ⟨y, _, rfl⟩ := List.mem_map.1 hr
        exact ⟨by show k.toNat < nk; omega, (List.getElem?_eq_some_iff.1 ht).1⟩
      · cases hr

theorem mem_log {secs : List (List In × List Bytes)} (h : ∃ x ∈ secs, x.2 ≠ []) {K T : Bytes} : ∃ b, Call.incr b ∈ secs.flatMap fun x => .keys K :: .sdbs T :: x.2.map .incr := by
  obtain ⟨x, h1, h2⟩ := h
  obtain ⟨b, hb⟩ := List.exists_mem_of_ne_nil _ h2
  exact ⟨b, List.mem_flatMap.2 ⟨x, h1, by simp [hb]⟩⟩

theorem calls_log (K T : Bytes) (secs : List (List In × List Bytes)) : (secs.flatMap fun x => Snodb.Rec.keys K :: .sdbs T :: x.2.map .zpub).map callOf = secs.flatMap fun x => .keys K :: .sdbs T :: x.2.map .incr := by
  rw [List.map_flatMap]
  congr 1
  funext bs
  simp only [List.map_cons, List.map_map, callOf]
  rfl

/-! ### Reading the file -/

theorem addName_new {ks : List Bytes} {k : Bytes} (h : ∀ n ∈ ks, fold n ≠ fold k) : Sno.addName ks k = ks ++ [k] := by
  unfold Sno.addName
  rw [if_neg]
  simpa using h

theorem addNames : ∀ (ks l : List Bytes), (ks.Pairwise fun a b => fold a ≠ fold b) → (∀ k ∈ ks, ∀ n ∈ l, fold n ≠ fold k) → ks.foldl Sno.addName l = l ++ ks := by
  intro ks
  induction ks with
  | nil => intro l _ _; simp
  | cons k ks ih =>
    intro l hp hl
    obtain ⟨h1, h2⟩ := List.pairwise_cons.1 hp
    rw [List.foldl_cons, addName_new (hl k (by simp)), ih _ h2, List.append_assoc]
    · rfl
    · intro k' hk' n hn
      rcases List.mem_append.1 hn with hn | hn
      · exact hl k' (by simp [hk']) n hn
      · rw [List.mem_singleton.1 hn]; exact h1 k' hk'

theorem addTabs : ∀ (ts : List Tab) (l : List (Bytes × Nat)), (ts.Pairwise fun a b => fold a.name ≠ fold b.name) → (∀ t ∈ ts, ∀ n ∈ l, fold n.1 ≠ fold t.name) →
    ts.foldl Sno.addTable l = l ++ ts.map fun t => (t.name, t.db.size) := by
  intro ts
  induction ts with
  | nil => intro l _ _; simp
  | cons t ts ih =>
    intro l hp hl
    obtain ⟨h1, h2⟩ := List.pairwise_cons.1 hp
    have : Sno.addTable l t = l ++ [(t.name, t.db.size)] := by
      unfold Sno.addTable
      rw [if_neg]
      simpa using hl t (by simp)
    rw [List.foldl_cons, this, ih _ h2, List.append_assoc]
    · rfl
    · intro k' hk' n hn
      rcases List.mem_append.1 hn with hn | hn
      · exact hl k' (by simp [hk']) n hn
      · rw [List.mem_singleton.1 hn]; exact h1 k' hk'

theorem find_apart {α : Type} (f : α → Bytes) : ∀ {l : List α} {x : α}, (l.Pairwise fun a b => fold (f a) ≠ fold (f b)) → x ∈ l → l.find? (fun y => fold (f y) == fold (f x)) = some x := by
  intro l
  induction l with
  | nil => intro x _ h; cases h
  | cons a l ih =>
    intro x hp hx
    obtain ⟨h1, h2⟩ := List.pairwise_cons.1 hp
    rcases List.mem_cons.1 hx with rfl | hx
    · simp
    · rw [List.find?_cons_of_neg, ih h2 hx]
      simpa using h1 x hx

/-- Records of known keys and tables, one by one. -/
theorem puts_acts {ks : List Bytes} {ts : List Tab} (hk : ks.Pairwise fun a b => fold a ≠ fold b) (ht : ts.Pairwise fun a b => fold a.name ≠ fold b.name) (hpos : ∀ t ∈ ts, 0 < t.db.size) :
    ∀ {ps : List Sno.Rec} {old : List Sno.Rec}, (∀ p ∈ ps, p.key ∈ ks ∧ ∃ t ∈ ts, p.tab = t.name ∧ p.data.length = t.db.size) →
      (⟨ks, ts.map fun t => (t.name, t.db.size), old, true⟩ : Sno.Abs).acts (ps.map fun r => .put r.key r.tab r.data) = ⟨ks, ts.map fun t => (t.name, t.db.size), old ++ ps, true⟩ := by
  intro ps
  induction ps with
  | nil => intro old _; simp [Sno.Abs.acts]
  | cons p ps ih =>
    intro old h
    obtain ⟨n, tn, r'⟩ := p
    obtain ⟨hn, t, htm, rfl, e4⟩ := h _ (List.mem_cons_self ..)
    dsimp only at hn e4
    have g2 := ih (old := old ++ [⟨n, t.name, r'⟩]) fun p hp => h p (by simp [hp])
    have hsz := hpos t htm
    unfold Sno.Abs.acts at g2 ⊢
    rw [List.map_cons, List.foldl_cons]
    have hadd : Sno.addName ks n = ks := by
      unfold Sno.addName
      rw [if_pos]
      rw [List.any_eq_true]
      exact ⟨n, hn, by simp⟩
    have hsp : Sno.spell ks n = n := by
      unfold Sno.spell
      have := find_apart (fun x : Bytes => x) hk hn
      rw [this]
      rfl
    have hfind : (ts.map fun t => (t.name, t.db.size)).find? (fun u => fold u.1 == fold t.name) = some (t.name, t.db.size) := by
      rw [List.find?_map]
      show (ts.find? fun u => fold u.name == fold t.name).map _ = _
      rw [find_apart (fun t : Tab => t.name) ht htm]
      rfl
    have hact : Sno.Abs.act ⟨ks, ts.map fun t => (t.name, t.db.size), old, true⟩ (.put n t.name r') = ⟨ks, ts.map fun t => (t.name, t.db.size), old ++ [⟨n, t.name, r'⟩], true⟩ := by
      unfold Sno.Abs.act
      simp only [hfind]
      rw [hadd, hsp, e4, Nat.mod_self, if_pos rfl, Nat.div_self hsz]
      have : Sdb.records t.db.size 1 r' = [r'] := by
        simp [Sdb.records, ← e4]
      rw [this]
      rfl
    rw [hact, g2, List.append_assoc]
    rfl

end Sis.Wsno
