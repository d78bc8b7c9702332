import Verif.Snodb.WsnoLemmas
/-
Lemmas: what the compressor of the stream does with records, one by one.
-/
namespace Sis.Wsno
open Sis
open Sis.Sdb (Tab)
open Sis.Zip (Z Ready Run Ev Op Last Flow Fits sent recsOf feed SameRecs SameRec Opens Follows Linked Sound pieces bitsOf getSize does)

/-- A record that can be taken is taken. -/
theorem step_taken {z z3 : Z} {k s : Int} {r : Bytes} {n : Int} {bs : List Bytes} {t : Zip.Tab} (hst : z.status = 7) (hs : 0 ≤ s) (ht : z.tabs[s.toNat]? = some t) (hk : 0 ≤ k)
    (hkk : k.toNat < z.keys) (hlen : r.length = t.db.size) (hpos : 0 < t.db.size) (hsm : t.db.size + 264 ≤ z.zsize) (h : Zip.step z k s r = some (n, bs, z3)) :
    0 < n ∧ z3.keys = z.keys ∧ z3.status = 7 ∧ z3.zsize = z.zsize ∧ z3.tabs = z.tabs := by
  unfold Zip.step at h
  rw [if_neg (by rw [hst]; decide)] at h
  simp only [show ¬ s < 0 from by omega, if_false, ht, show ¬ k < 0 from by omega] at h
  unfold Zip.curMem at h
  rw [if_pos hkk] at h
  dsimp only at h
  have h1 : r.length / t.db.size = 1 := by rw [hlen]; exact Nat.div_self hpos
  rw [h1, if_neg (by rw [hlen]; simp)] at h
  split at h
  · cases h
  rw [if_neg (by omega)] at h
  simp only [Option.bind_eq_some_iff, Option.map_eq_some_iff] at h
  obtain ⟨⟨bs', z'⟩, g1, z2, g2, g3⟩ := h
  simp only [Prod.mk.injEq] at g3
  obtain ⟨rfl, rfl, rfl⟩ := g3
  have hz' : z'.keys = z.keys ∧ z'.status = z.status ∧ z'.zsize = z.zsize ∧ z'.tabs = z.tabs := by
    split at g1
    · simp only [Option.map_eq_some_iff, Prod.mk.injEq] at g1
      obtain ⟨_, _, _, rfl⟩ := g1
      exact ⟨rfl, rfl, rfl, rfl⟩
    · cases g1
      exact ⟨rfl, rfl, rfl, rfl⟩
  unfold Zip.bag at g2
  simp only [Option.bind_eq_some_iff, Option.map_eq_some_iff] at g2
  obtain ⟨f, -, s1, -, ⟨m, s2⟩, -, ⟨s3, w⟩, -, rfl⟩ := g2
  refine ⟨?_, hz'.1, hz'.2.1.trans hst, hz'.2.2.1, hz'.2.2.2⟩
  dsimp only
  omega

/-- A record of a key that is not there is not taken. -/
theorem step_left {z : Z} {k s : Int} {r : Bytes} {t : Zip.Tab} (hst : z.status = 7) (hs : 0 ≤ s) (ht : z.tabs[s.toNat]? = some t) (hk : 0 ≤ k)
    (hkk : ¬ k.toNat < z.keys) : Zip.step z k s r = some (-3, [], z) := by
  unfold Zip.step
  rw [if_neg (by rw [hst]; decide)]
  simp only [show ¬ s < 0 from by omega, if_false, ht, show ¬ k < 0 from by omega]
  unfold Zip.curMem
  rw [if_neg hkk]

theorem run_snoc {z z' z'' : Z} {evs : List Ev} {op : Op} {n : Int} {bs : List Bytes} (h : Run z evs z') (hd : does z' op = some (n, bs, z'')) :
    Run z (evs ++ [⟨op, n, bs, getSize z''⟩]) z'' := by
  induction h with
  | nil => exact .cons hd .nil
  | cons h1 _ ih => exact .cons h1 (ih hd)

theorem sent_app (dbs : List Dyn.Db) (a b : List Ev) : sent dbs (a ++ b) = sent dbs a ++ sent dbs b := by
  induction a with
  | nil => rfl
  | cons e a ih => rw [List.cons_append, Zip.sent_cons dbs e (a ++ b), ih, Zip.sent_cons dbs e a, List.append_assoc]

/-- An event of a compressor that gets its records one by one. -/
def Single (dbs : List Dyn.Db) (e : Ev) : Prop :=
  match e.op with
  | .step _ s src => 0 < e.ret → ∃ db, dbs[s.toNat]? = some db ∧ src.length = db.size ∧ 0 < db.size
  | .restart _ => True
  | .addKey _ => False

theorem pieces_one {n : Nat} {r : Bytes} (h : r.length = n) (hp : 0 < n) : pieces n r = [r] := by
  unfold pieces
  rw [h, Nat.div_self hp]
  simp [List.take_of_length_le (Nat.le_of_eq h)]

/-- Every record before is the one that is remembered, if there is one. -/
def Prev (done : List Zip.Rec) (p : Last) : Prop :=
  ∀ k s x, p k s = some x → ∃ a b, done = a ++ (k, s, x) :: b ∧ ∀ r ∈ b, ¬ (r.1 = k ∧ r.2.1 = s)

theorem Tame.pre {ts : List Tab} {a b : List Zip.Rec} (h : Tame ts (a ++ b)) : Tame ts a :=
  ⟨fun k s r t hm ht => h.1 k s r t (List.mem_append_left _ hm) ht, fun x y z k s u v t e hn ht => h.2 x y (z ++ b) k s u v t (by rw [e]; simp) hn ht⟩

theorem flow_tame {ts : List Tab} : ∀ {evs : List Ev} {done : List Zip.Rec} {p : Last}, (∀ e ∈ evs, Single (ts.map (·.db)) e) → Prev done p →
    Tame ts (done ++ sent (ts.map (·.db)) evs) → Flow (ts.map (·.db)) p evs := by
  intro evs
  induction evs with
  | nil => intro done p _ _ _; trivial
  | cons e evs ih =>
    intro done p hs hp ht
    obtain ⟨op, n, bs, sz⟩ := e
    have h1 := hs _ (List.mem_cons_self ..)
    have h2 : ∀ e ∈ evs, Single (ts.map (·.db)) e := fun e he => hs e (List.mem_cons_of_mem _ he)
    cases op with
    | addKey m => exact h1.elim
    | restart init =>
      unfold Flow
      refine ih (done := done) h2 ?_ ht
      cases init
      · exact hp
      · intro k s x hx
        cases hx
    | step k s src =>
      unfold Flow
      split
      · rename_i hn
        obtain ⟨db, hdb, hl, hpos⟩ := h1 hn
        have hdb' := hdb
        rw [List.getElem?_map, Option.map_eq_some_iff] at hdb'
        obtain ⟨t, hts, htd⟩ := hdb'
        have hr : recsOf (ts.map (·.db)) s.toNat src = [src] := by
          unfold recsOf
          rw [hdb]
          exact pieces_one hl hpos
        have hsent : sent (ts.map (·.db)) (⟨.step k s src, n, bs, sz⟩ :: evs) = (k.toNat, s.toNat, src) :: sent (ts.map (·.db)) evs := by
          simp only [sent, if_pos hn, hr]
          rfl
        rw [hsent] at ht
        have hop : Opens db src := by
          have := ht.1 k.toNat s.toNat src t (by simp) hts
          rwa [htd] at this
        rw [hr]
        refine ⟨?_, ih (done := done ++ [(k.toNat, s.toNat, src)]) h2 ?_ (by rw [List.append_assoc]; exact ht)⟩
        · intro db' hdb2
          rw [hdb] at hdb2
          cases hdb2
          refine ⟨fun _ => ⟨by simp, hop, trivial⟩, fun a ha => ⟨?_, trivial⟩⟩
          obtain ⟨x, y, e1, e2⟩ := hp _ _ _ ha
          have := ht.2 x y _ _ _ a src t (by rw [e1]) e2 hts
          rwa [htd] at this
        · intro k' s' x hx
          unfold Last.after at hx
          split at hx
          · rename_i hc
            obtain ⟨rfl, rfl⟩ := hc
            simp only [List.getLast?_singleton, Option.some_or, Option.some.injEq] at hx
            subst hx
            exact ⟨done, [], rfl, by simp⟩
          · rename_i hc
            obtain ⟨a, b, e1, e2⟩ := hp _ _ _ hx
            refine ⟨a, b ++ [(k.toNat, s.toNat, src)], by rw [e1]; simp, ?_⟩
            intro r hr
            rcases List.mem_append.1 hr with hr | hr
            · exact e2 r hr
            · rw [List.mem_singleton.1 hr]
              exact fun he => hc ⟨he.1.symm, he.2.symm⟩
      · rename_i hn
        refine ih (done := done) h2 hp ?_
        unfold sent at ht
        rw [if_neg hn] at ht
        simpa using ht

/-- What is known of the compressor after the records `rs`, with the packets `bs`. -/
structure Got (ts : List Tab) (nk : Nat) (z1 : Z) (rs : List Zip.Rec) (bs : List Bytes) (z : Z) (evs : List Ev) : Prop where
  run : Run z1 evs z
  blocks : (evs.map Ev.blocks).flatten = bs
  sent : sent (ts.map (·.db)) evs = rs
  sizes : ∀ e ∈ evs, (e.size : Int) ≤ max 16384 (partSize : Nat)
  known : ∀ e ∈ evs, ∀ k s src, e.op = .step k s src → 0 < e.ret → k < (nk : Nat)
  single : ∀ e ∈ evs, Single (ts.map (·.db)) e
  now : getSize z ≤ 16384
  keys : z.keys = nk
  status : z.status = 7
  zsize : z.zsize = 16384
  tabs : z.tabs = z1.tabs

theorem Got.flow {ts : List Tab} {nk : Nat} {z1 z : Z} {rs : List Zip.Rec} {bs : List Bytes} {evs : List Ev} (h : Got ts nk z1 rs bs z evs) (ht : Tame ts rs) :
    Flow (ts.map (·.db)) (fun _ _ => none) evs :=
  flow_tame (done := []) h.single (by intro k s x hx; cases hx) (by rw [List.nil_append, h.sent]; exact ht)

/-- One record more. -/
theorem got_record {ts : List Tab} {nk : Nat} {z0 z1 z : Z} {rs : List Zip.Rec} {bs : List Bytes} {evs : List Ev} (hfit : ∀ t ∈ ts, Fit t.db) (hr : Ready (ts.map (·.db)) nk z0)
    (h1 : Zip.start z0 (partSize : Nat) = some (0, z1)) (h : Got ts nk z1 rs bs z evs) {k s : Int} (hk : 0 ≤ k) (hs : 0 ≤ s) {t : Tab} (htab : ts[s.toNat]? = some t) {r : Bytes}
    (hlen : r.length = t.db.size) (hT : k < (nk : Nat) → Tame ts (rs ++ [(k.toNat, s.toNat, r)])) :
    ∃ n bs' z' evs', Zip.step z k s r = some (n, bs', z') ∧ Got ts nk z1 (rs ++ if k < (nk : Nat) then [(k.toNat, s.toNat, r)] else []) (bs ++ bs') z' evs' := by
  have hf := hfit t (List.mem_of_getElem? htab)
  have hdb : (ts.map (·.db))[s.toNat]? = some t.db := by rw [List.getElem?_map, htab]; rfl
  have htabs : z1.tabs = z0.tabs := by
    unfold Zip.start at h1
    split at h1
    · cases h1
    dsimp only at h1
    generalize (if ((partSize : Nat) : Int) < 16384 then 16384 else ((partSize : Nat) : Int).toNat) = m at h1
    split at h1
    · cases h1
    · cases h1; rfl
  obtain ⟨zt, hzt, hztdb⟩ : ∃ zt : Zip.Tab, z.tabs[s.toNat]? = some zt ∧ zt.db = t.db :=
    ⟨_, by rw [h.tabs, htabs]; exact hr.facts.1.tab _ _ hdb, rfl⟩
  by_cases hkk : k < (nk : Nat)
  · have hT := hT hkk
    have hev : Single (ts.map (·.db)) ⟨.step k s r, 1, [], 0⟩ := fun _ => ⟨t.db, hdb, hlen, hf.pos⟩
    have hrec : recsOf (ts.map (·.db)) s.toNat r = [r] := by
      unfold recsOf
      rw [hdb]
      exact pieces_one hlen hf.pos
    have hsent : ∀ n bs sz, 0 < n → Zip.sent (ts.map (·.db)) [⟨.step k s r, n, bs, sz⟩] = [(k.toNat, s.toNat, r)] := by
      intro n bs sz hn
      simp [Zip.sent, hn, hrec]
    have hflow : Flow (ts.map (·.db)) (fun _ _ => none) (evs ++ [⟨.step k s r, 1, [], 0⟩]) :=
      flow_tame (done := []) (by
        intro e he
        rcases List.mem_append.1 he with he | he
        · exact h.single e he
        · rw [List.mem_singleton.1 he]; exact hev) (by intro k s x hx; cases hx) (by
        rw [List.nil_append, sent_app, h.sent, hsent _ _ _ (by decide)]
        exact hT)
    obtain ⟨n, bs', z', g1, g2⟩ := Zip.C09_defined_partial (fun db hd => by
      obtain ⟨u, hu, rfl⟩ := List.mem_map.1 hd
      exact (hfit u hu).plain) hr h1 h.run h.sizes hflow hk (by
      intro db hd
      rw [hdb] at hd
      cases hd
      have := hf.small
      have := hf.bits
      rw [hlen, Nat.div_self hf.pos]
      omega)
    obtain ⟨q1, q2, q3, q4, q5⟩ := step_taken h.status hs hzt hk (by rw [h.keys]; omega) (by rw [hztdb]; exact hlen) (by rw [hztdb]; exact hf.pos) (by rw [hztdb, h.zsize]; exact hf.small) g1
    have hmax : max 16384 ((partSize : Nat) : Int) = 16384 := by decide
    refine ⟨n, bs', z', evs ++ [⟨.step k s r, n, bs', getSize z'⟩], g1, ⟨run_snoc (op := .step k s r) h.run g1, ?_, ?_, ?_, ?_, ?_, by rw [hmax] at g2; omega, q2.trans h.keys, q3, q4.trans h.zsize, q5.trans h.tabs⟩⟩
    · rw [List.map_append, List.flatten_append, h.blocks]
      simp
    · rw [sent_app, h.sent, hsent _ _ _ q1, if_pos hkk]
    · intro e he
      rcases List.mem_append.1 he with he | he
      · exact h.sizes e he
      · rw [List.mem_singleton.1 he]; exact g2
    · intro e he k' s' src ho hn
      rcases List.mem_append.1 he with he | he
      · exact h.known e he k' s' src ho hn
      · rw [List.mem_singleton.1 he] at ho
        cases ho
        exact hkk
    · intro e he
      rcases List.mem_append.1 he with he | he
      · exact h.single e he
      · rw [List.mem_singleton.1 he]
        exact fun _ => ⟨t.db, hdb, hlen, hf.pos⟩
  · have g1 := step_left (r := r) h.status hs hzt hk (by rw [h.keys]; omega)
    refine ⟨-3, [], z, evs ++ [⟨.step k s r, -3, [], getSize z⟩], g1, ⟨run_snoc (op := .step k s r) h.run g1, ?_, ?_, ?_, ?_, ?_, h.now, h.keys, h.status, h.zsize, h.tabs⟩⟩
    · rw [List.map_append, List.flatten_append, h.blocks]
      simp
    · rw [sent_app, h.sent, if_neg hkk]
      simp [Zip.sent]
    · intro e he
      rcases List.mem_append.1 he with he | he
      · exact h.sizes e he
      · rw [List.mem_singleton.1 he]
        have := h.now
        dsimp only
        omega
    · intro e he k' s' src ho hn
      rcases List.mem_append.1 he with he | he
      · exact h.known e he k' s' src ho hn
      · rw [List.mem_singleton.1 he] at hn
        cases hn
    · intro e he
      rcases List.mem_append.1 he with he | he
      · exact h.single e he
      · rw [List.mem_singleton.1 he]
        intro hn
        cases hn

/-- The end of a packet. -/
theorem got_restart {ts : List Tab} {nk : Nat} {z0 z1 z : Z} {rs : List Zip.Rec} {bs : List Bytes} {evs : List Ev} (hfit : ∀ t ∈ ts, Fit t.db) (hr : Ready (ts.map (·.db)) nk z0)
    (h1 : Zip.start z0 (partSize : Nat) = some (0, z1)) (h : Got ts nk z1 rs bs z evs) (hT : Tame ts rs) (init : Bool) :
    ∃ bs' z' evs', Zip.restart z init = some (bs', z') ∧ Got ts nk z1 rs (bs ++ bs') z' evs' ∧ getSize z' = 0 := by
  obtain ⟨bs', z', g1, g2⟩ := (Zip.C09_ends (fun db hd => by
      obtain ⟨u, hu, rfl⟩ := List.mem_map.1 hd
      exact (hfit u hu).plain) hr h1 h.run h.sizes (h.flow hT)).1 init
  have hq : z'.keys = z.keys ∧ z'.status = z.status ∧ z'.zsize = z.zsize ∧ z'.tabs = z.tabs := by
    unfold Zip.restart at g1
    rw [if_neg (by rw [h.status]; decide)] at g1
    simp only [Option.map_eq_some_iff, Prod.mk.injEq] at g1
    obtain ⟨⟨b2, z2⟩, e1, rfl, rfl⟩ := g1
    have : z2.keys = z.keys ∧ z2.status = z.status ∧ z2.zsize = z.zsize ∧ z2.tabs = z.tabs := by
      split at e1
      · simp only [Option.map_eq_some_iff, Prod.mk.injEq] at e1
        obtain ⟨_, _, _, rfl⟩ := e1
        cases init <;> exact ⟨rfl, rfl, rfl, rfl⟩
      · cases e1
        exact ⟨rfl, rfl, rfl, rfl⟩
    cases init
    · exact this
    · exact this
  have hd : does z (.restart init) = some (0, bs', z') := by
    show (Zip.restart z init).map _ = _
    rw [g1]
    rfl
  refine ⟨bs', z', evs ++ [⟨.restart init, 0, bs', getSize z'⟩], g1, ⟨run_snoc h.run hd, ?_, ?_, ?_, ?_, ?_, by omega, hq.1.trans h.keys, hq.2.1.trans h.status, hq.2.2.1.trans h.zsize, hq.2.2.2.trans h.tabs⟩, g2⟩
  · rw [List.map_append, List.flatten_append, h.blocks]
    simp
  · rw [sent_app, h.sent]
    simp [Zip.sent]
  · intro e he
    rcases List.mem_append.1 he with he | he
    · exact h.sizes e he
    · rw [List.mem_singleton.1 he]
      dsimp only
      omega
  · intro e he k' s' src ho hn
    rcases List.mem_append.1 he with he | he
    · exact h.known e he k' s' src ho hn
    · rw [List.mem_singleton.1 he] at ho
      cases ho
  · intro e he
    rcases List.mem_append.1 he with he | he
    · exact h.single e he
    · rw [List.mem_singleton.1 he]
      trivial

end Sis.Wsno
