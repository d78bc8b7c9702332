import Verif.Snodb.WsnoSpec
import Verif.Zip.StepTheorems
import Verif.Sdb.Refine
/-
Lemmas about the compressor of the stream.
-/
namespace Sis.Wsno
open Sis
open Sis.Sdb (Tab fold KeyName splitNames)
open Sis.Dyn (setN sameN)
open Sis.Zip (Z Ready Run Ev Op Last Flow Fits sent recsOf feed SameRecs SameRec Opens Follows Linked Sound pieces bitsOf getSize)

/-! ### The dictionaries -/

theorem setN_new {α : Type} {l : List (Bytes × α)} {k : Bytes} {v : α} (h : ∀ e ∈ l, sameN k e.1 = false) : (setN l k v).1 = l ++ [(k, v)] := by
  induction l with
  | nil => rfl
  | cons e l ih =>
    unfold setN
    rw [if_neg (by rw [h e (by simp)]; decide)]
    simp [ih fun e he => h e (by simp [he])]

theorem same_false {a b : Bytes} (h : fold a ≠ fold b) : sameN b a = false := by
  unfold sameN
  exact beq_eq_false_iff_ne.2 fun e => h e.symm

theorem setAll {α β : Type} (f : β → Bytes × α) : ∀ (xs : List β) (l : List (Bytes × α)), (xs.Pairwise fun a b => fold (f a).1 ≠ fold (f b).1) →
    (∀ x ∈ xs, ∀ e ∈ l, fold e.1 ≠ fold (f x).1) → xs.foldl (fun l x => (setN l (f x).1 (f x).2).1) l = l ++ xs.map f := by
  intro xs
  induction xs with
  | nil => intro l _ _; simp
  | cons x xs ih =>
    intro l hp hl
    rw [List.pairwise_cons] at hp
    rw [List.foldl_cons, setN_new fun e he => same_false (hl x (by simp) e he), ih _ hp.2]
    · simp
    · intro y hy e he
      rcases List.mem_append.1 he with he | he
      · exact hl y (by simp [hy]) e he
      · rw [List.mem_singleton.1 he]
        exact hp.1 y hy

theorem dict_init {dbs : List Dyn.Db} {k : Nat} : ∀ {ts : List (Bytes × Tab)} {z : Z}, Ready dbs k z → z.sum + (ts.map fun t => t.2.db.size + 1).sum < 2 ^ 32 → z.status ||| 2 = 3 →
    (∀ t ∈ ts, t.2.db.size ≤ 16384) → z.maxdb ≤ 16384 → (ts = [] → z.status = 3) →
    ∃ z', ts.foldlM (fun z t => (Zip.setSdb z t.2.db).map (·.2)) z = some z' ∧ Ready (dbs ++ ts.map (·.2.db)) k z' ∧ z'.status = 3 ∧ z'.maxdb ≤ 16384 ∧
      z'.sum = z.sum + (ts.map fun t => t.2.db.size + 1).sum := by
  intro ts
  induction ts generalizing dbs with
  | nil => intro z hr _ _ _ hm hs; exact ⟨z, rfl, by simpa using hr, hs rfl, hm, by simp⟩
  | cons t ts ih =>
    intro z hr hsum hst hsm hm _
    rw [List.map_cons, List.sum_cons] at hsum
    obtain ⟨i, z', h1⟩ : ∃ i z', Zip.setSdb z t.2.db = some (i, z') := by
      unfold Zip.setSdb
      rw [if_pos (by omega)]
      exact ⟨_, _, rfl⟩
    have h1' := h1
    unfold Zip.setSdb at h1'
    rw [if_pos (by omega)] at h1'
    cases h1'
    have hd := ih (z := { z with tabs := z.tabs ++ [⟨t.2.db, z.sum, t.2.db.fields.length % 2 ^ 16⟩], sum := z.sum + t.2.db.size + 1, maxdb := Nat.max z.maxdb t.2.db.size, status := z.status ||| 2 })
      (.sdb hr h1) (by dsimp only; omega) (by dsimp only; rw [hst]; rfl) (fun u hu => hsm u (by simp [hu])) (by
        dsimp only
        exact Nat.max_le.2 ⟨hm, hsm t (by simp)⟩) (fun _ => hst)
    obtain ⟨z', g1, g2, g3, g4, g5⟩ := hd
    refine ⟨z', ?_, by simpa using g2, g3, g4, by rw [g5, List.map_cons, List.sum_cons]; dsimp only; omega⟩
    rw [List.foldlM_cons, h1]
    exact g1

/-- The names and tables of a dictionary. -/
structure Named (ks : List Bytes) (ts : List Tab) (i : Incr) : Prop where
  keys : i.keys = ks.map fun k => (k, k)
  sdbs : i.sdbs = ts.map fun t => (t.name, t)

theorem dict_made {e : Env} {ks : List Bytes} {ts : List Tab} {K T : Bytes} (h : Dict e ks ts K T) :
    ∃ i, withDict e K T = some i ∧ Named ks ts i ∧ Ready (ts.map (·.db)) ks.length i.z ∧ i.z.status = 3 ∧ i.z.maxdb ≤ 16384 ∧ i.summ = 0 ∧
      i.z.keys = ks.length ∧ i.z.sum = (ts.map fun t => t.db.size + 1).sum := by
  have hk : setKeys [] K = ks.map fun k => (k, k) := by
    unfold setKeys
    rw [h.keys, Sdb.join_eq, Sdb.splitNames_join ks fun k hk => Sdb.goodKey (h.names k hk)]
    simpa using setAll (fun k : Bytes => (k, k)) ks [] h.apart (by simp)
  have ht : setSdbs [] (e.tabs T) = ts.map fun t => (t.name, t) := by
    unfold setSdbs
    rw [h.tabs]
    simpa using setAll (fun t : Tab => (t.name, t)) ts [] h.tapart (by simp)
  have hpos : 0 < ks.length := List.length_pos_iff.2 h.some
  have hsum : (ts.map fun t => t.db.size + 1).sum < 2 ^ 32 :=
    Nat.lt_of_le_of_lt (Nat.le_mul_of_pos_left _ hpos) h.room
  have hmap : ((ts.map fun t => (t.name, t)).map fun t : Bytes × Tab => t.2.db.size + 1) = ts.map fun t => t.db.size + 1 := by simp
  obtain ⟨z, h1, h2, h3, h4, h5⟩ := dict_init (ts := ts.map fun t => (t.name, t)) (.key (ks.length : Int) .create) (by
      rw [hmap]
      simpa [Zip.setKey, Zip.create] using hsum) (by show (0 ||| 1) ||| 2 = 3; decide) (by
      intro t ht
      obtain ⟨u, hu, rfl⟩ := List.mem_map.1 ht
      have := (h.fits u hu).small
      dsimp only
      omega) (by simp [Zip.setKey, Zip.create]) (by
      intro hn
      exact absurd (List.map_eq_nil_iff.1 hn) h.tsome)
  have hz : (if (ks.length : Int) < 1 then 1 else (ks.length : Int).toNat) = ks.length := by
    rw [if_neg (by omega)]
    simp
  rw [hz] at h2
  have h2' : Ready (ts.map (·.db)) ks.length z := by simpa [Function.comp_def] using h2
  refine ⟨⟨ks.map fun k => (k, k), ts.map fun t => (t.name, t), z, 0⟩, ?_, ⟨rfl, rfl⟩, h2', h3, h4, rfl, h2'.facts.1.keys, ?_⟩
  · unfold withDict initDict
    simp only [hk, ht, List.length_map]
    rw [h1]
    rfl
  · rw [h5, hmap]
    simp [Zip.setKey, Zip.create]

/-- The compressor. -/
theorem zip_opened {e : Env} {ks : List Bytes} {ts : List Tab} {K T : Bytes} (h : Dict e ks ts K T) :
    ∃ z0 z1, zipOpen e K T = some ⟨ks.map fun k => (k, k), ts.map fun t => (t.name, t), z1, 0⟩ ∧ Ready (ts.map (·.db)) ks.length z0 ∧ Zip.start z0 (partSize : Nat) = some (0, z1) ∧
      z1.keys = ks.length ∧ z1.status = 7 ∧ z1.zsize = 16384 ∧ getSize z1 = 0 := by
  obtain ⟨i, h1, h2, h3, h4, h5, h6, h7, h8⟩ := dict_made h
  have hs : ∃ z1, Zip.start i.z (partSize : Nat) = some (0, z1) ∧ z1.keys = ks.length ∧ z1.status = 7 ∧ z1.zsize = 16384 ∧ getSize z1 = 0 := by
    unfold Zip.start
    rw [if_neg (by rw [h4]; decide)]
    dsimp only
    rw [if_neg]
    · refine ⟨_, rfl, h7, rfl, rfl, ?_⟩
      unfold getSize
      rw [h3.facts.2.2.1]
      simp
    · rw [h7, h8]
      have := h.room
      unfold partSize
      simp only [show ¬ ((0x4000 : Nat) : Int) < 16384 from by decide, if_false]
      have : ((0x4000 : Nat) : Int).toNat = 16384 := by decide
      omega
  obtain ⟨z1, g1, g2, g3, g4, g5⟩ := hs
  refine ⟨i.z, z1, ?_, h3, g1, g2, g3, g4, g5⟩
  unfold zipOpen
  rw [h1, Option.bind_some, g1]
  obtain ⟨a, b, c, d⟩ := i
  have := h2.keys
  have := h2.sdbs
  simp_all

/-- The decompressor. -/
theorem unzip_opened {e : Env} {ks : List Bytes} {ts : List Tab} {K T : Bytes} (h : Dict e ks ts K T) (hf : ∀ n, (e.fresh n).length = n) :
    ∃ d0 d1 fresh, unzipOpen e K T = some ⟨ks.map fun k => (k, k), ts.map fun t => (t.name, t), d1, 0⟩ ∧ Ready (ts.map (·.db)) ks.length d0 ∧ Zip.unStart d0 fresh = some (0, d1) := by
  obtain ⟨i, h1, h2, h3, h4, h5, h6, h7, h8⟩ := dict_made h
  have hs : ∃ d1, Zip.unStart i.z (e.fresh i.z.maxdb) = some (0, d1) := by
    unfold Zip.unStart
    rw [if_neg (by rw [h4]; decide), if_neg]
    · exact ⟨_, rfl⟩
    · rw [h7, h8, hf]
      have := h.room
      have := h.few
      omega
  obtain ⟨d1, g1⟩ := hs
  refine ⟨i.z, d1, _, ?_, h3, g1⟩
  unfold unzipOpen
  rw [h1, Option.bind_some, g1]
  obtain ⟨a, b, c, d⟩ := i
  have := h2.keys
  have := h2.sdbs
  simp_all

end Sis.Wsno
