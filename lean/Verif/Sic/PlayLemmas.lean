import Verif.Sic.SicSpec
import Verif.Zip.OneLemmas
/- Lemmas on files of compressed records: what the blocks of a file are read as. -/
namespace Sis.Sic
open Sis Sis.Zip
open Sis.Dyn (Db)

/-- Records as they are read. -/
def Cp (dbs : List Db) : List Zip.Rec → List Zip.Rec → Prop :=
  List.Forall₂ fun x r => x.1 = r.1 ∧ x.2.1 = r.2.1 ∧ ∃ db, dbs[r.2.1]? = some db ∧ r.2.2.length = db.size ∧ x.2.2.length = db.size ∧ SameRec db x.2.2 r.2.2

theorem Cp.append {dbs : List Db} {as bs cs ds : List Zip.Rec} (h : Cp dbs as bs) (g : Cp dbs cs ds) : Cp dbs (as ++ cs) (bs ++ ds) := by
  induction h with
  | nil => exact g
  | cons h _ ih => exact .cons h ih

theorem Cp.mono {dbs : List Db} {as bs : List Zip.Rec} (h : Cp dbs as bs) (ys : List Db) : Cp (dbs ++ ys) as bs := by
  refine List.Forall₂.imp ?_ h
  rintro x r ⟨h1, h2, db, h3, h4⟩
  refine ⟨h1, h2, db, ?_, h4⟩
  rw [List.getElem?_append_left (List.getElem?_eq_some_iff.1 h3).1, h3]

/-- Blocks that are read as these records, by a reader that has the tables, at least so many keys, and maybe more tables. -/
def Plays (dbs : List Db) (nk : Nat) (B : List Bytes) (rs : List Zip.Rec) : Prop :=
  ∀ xs kd d, nk ≤ kd → Dec (dbs ++ xs) kd d → ∃ outs d', Feeds d B outs d' ∧ Dec (dbs ++ xs) kd d' ∧ Cp dbs outs.flatten rs ∧ ∀ o ∈ outs, o.length < 131072

theorem Plays.nil (dbs : List Db) (nk : Nat) : Plays dbs nk [] [] := fun _ _ d _ h => ⟨[], d, .nil, h, .nil, by simp⟩

theorem Plays.mono {dbs : List Db} {nk nk' : Nat} {B : List Bytes} {rs : List Zip.Rec} (h : Plays dbs nk B rs) (ys : List Db) (hn : nk ≤ nk') : Plays (dbs ++ ys) nk' B rs := by
  intro xs kd d hk hd
  rw [List.append_assoc] at hd ⊢
  obtain ⟨outs, d', h1, h2, h3, h4⟩ := h (ys ++ xs) kd d (by omega) hd
  exact ⟨outs, d', h1, h2, h3.mono ys, h4⟩

/-- A record does not change the number of keys of a compressor. -/
theorem step_keys {z z' : Z} {k s : Int} {r : Bytes} {n : Int} {bs : List Bytes} (hs : Zip.step z k s r = some (n, bs, z')) : z'.keys = z.keys ∧ z'.status = z.status := by
  have hbag : ∀ {z z' : Z} {b k s n : Nat} {t : Zip.Tab} {src : Bytes}, bag z b k s n t src = some z' → z'.keys = z.keys ∧ z'.status = z.status := by
    intro z z' b k s n t src h
    unfold bag at h
    simp only [Option.bind_eq_some_iff, Option.map_eq_some_iff] at h
    obtain ⟨_, _, _, _, ⟨_, _⟩, _, ⟨_, _⟩, _, rfl⟩ := h
    exact ⟨rfl, rfl⟩
  unfold Zip.step at hs
  split at hs
  · cases hs; exact ⟨rfl, rfl⟩
  split at hs
  · cases hs; exact ⟨rfl, rfl⟩
  split at hs
  · cases hs
  split at hs
  · cases hs; exact ⟨rfl, rfl⟩
  split at hs
  · cases hs; exact ⟨rfl, rfl⟩
  dsimp only at hs
  split at hs
  · cases hs
  split at hs
  · cases hs; exact ⟨rfl, rfl⟩
  simp only [Option.bind_eq_some_iff, Option.map_eq_some_iff] at hs
  obtain ⟨⟨bs1, z1⟩, h3, z2, h4, h5⟩ := hs
  cases h5
  obtain ⟨g1, g2⟩ := hbag h4
  rw [g1, g2]
  split at h3
  · simp only [Option.map_eq_some_iff] at h3
    obtain ⟨blk, _, h3⟩ := h3
    cases h3
    exact ⟨rfl, rfl⟩
  · cases h3
    exact ⟨rfl, rfl⟩

theorem restart_keys {z z' : Z} {bs : List Bytes} (hs : Zip.restart z true = some (bs, z')) : z'.keys = z.keys ∧ z'.status = z.status := by
  unfold Zip.restart at hs
  split at hs
  · cases hs; exact ⟨rfl, rfl⟩
  · dsimp only at hs
    by_cases hp : getSize z > 0
    · rw [if_pos hp] at hs
      simp only [Option.map_map, Option.map_eq_some_iff] at hs
      obtain ⟨blk, _, hs⟩ := hs
      simp only [Function.comp_apply, Prod.mk.injEq, if_true] at hs
      rw [← hs.2]
      exact ⟨rfl, rfl⟩
    · rw [if_neg hp] at hs
      simp only [Option.map_some, Option.some.injEq, Prod.mk.injEq, if_true] at hs
      rw [← hs.2]
      exact ⟨rfl, rfl⟩

theorem start_keys {z z' : Z} (hs : Zip.start z 16384 = some (0, z')) : z'.keys = z.keys ∧ z'.status = 7 := by
  unfold Zip.start at hs
  split at hs
  · cases hs
  generalize (if (16384 : Int) < 16384 then 16384 else Int.toNat 16384) = zs at hs
  dsimp only at hs
  split at hs
  · cases hs
  · cases hs
    exact ⟨rfl, rfl⟩

theorem addKey_keys {z z' : Z} {r : Int} (hst : z.status = 7) (h : addKey z 1 = some (r, z')) : z'.keys = z.keys + 1 ∧ z'.status = 7 := by
  unfold addKey at h
  split at h
  · cases h
  · have h := (Prod.mk.inj (Option.some.inj h)).2
    rw [← h]
    exact ⟨rfl, hst⟩

/-- Blocks and what the compressor still has. -/
def Live (dbs : List Db) (nk : Nat) (B : List Bytes) (rs : List Zip.Rec) (z : Z) (last : Nat → Nat → Bytes → Prop) : Prop :=
  (nk ≤ z.keys ∧ z.status = 7) ∧ ∀ xs kd d, nk ≤ kd → Dec (dbs ++ xs) kd d → ∃ outs d' p dec, Feeds d B outs d' ∧ At dbs xs kd z d' p dec ∧ Cp dbs (outs.flatten ++ dec) rs ∧
    (∀ o ∈ outs, o.length < 131072) ∧ ∀ k s a, p k s = some a → last k s a

theorem Live.start {dbs : List Db} {nk ke : Nat} {B : List Bytes} {rs : List Zip.Rec} (h : Plays dbs nk B rs) {z0 z1 : Z} (hz : Ready dbs ke z0)
    (hs : Zip.start z0 16384 = some (0, z1)) (hk : nk ≤ ke) (last : Nat → Nat → Bytes → Prop) : Live dbs nk B rs z1 last := by
  refine ⟨?_, ?_⟩
  · obtain ⟨g1, g2⟩ := start_keys hs
    rw [g1, hz.facts.1.keys]
    exact ⟨hk, g2⟩
  · intro xs kd d hk hd
    obtain ⟨outs, d', h1, h2, h3, h4⟩ := h xs kd d hk hd
    exact ⟨outs, d', fun _ _ => none, [], h1, (at_start hz hs h2).1, by rw [List.append_nil]; exact h3, h4, by simp⟩

theorem Live.imp {dbs : List Db} {nk : Nat} {B : List Bytes} {rs : List Zip.Rec} {z : Z} {last last' : Nat → Nat → Bytes → Prop} (h : Live dbs nk B rs z last)
    (hl : ∀ k s a, last k s a → last' k s a) : Live dbs nk B rs z last' := by
  refine ⟨h.1, fun xs kd d hk hd => ?_⟩
  obtain ⟨outs, d', p, dec, h1, h2, h3, h4, h5⟩ := h.2 xs kd d hk hd
  exact ⟨outs, d', p, dec, h1, h2, h3, h4, fun k s a ha => hl k s a (h5 k s a ha)⟩

theorem Live.stop {dbs : List Db} {nk : Nat} {B : List Bytes} {rs : List Zip.Rec} {z z' : Z} {last : Nat → Nat → Bytes → Prop} (h : Live dbs nk B rs z last)
    {bs : List Bytes} (hs : Zip.stop z = some (bs, z')) : Plays dbs nk (B ++ bs) rs := by
  intro xs kd d hk hd
  obtain ⟨outs, d', p, dec, h1, h2, h3, h4, h5⟩ := h.2 xs kd d hk hd
  obtain ⟨outs2, d2, g1, g2, g3, g4⟩ := at_stop h2 hs
  refine ⟨outs ++ outs2, d2, h1.append g1, g2, by rw [List.flatten_append, g3]; exact h3, ?_⟩
  intro o ho
  rcases List.mem_append.1 ho with ho | ho
  · exact h4 o ho
  · exact g4 o ho

theorem Live.restart {dbs : List Db} {nk : Nat} {B : List Bytes} {rs : List Zip.Rec} {z z' : Z} {last : Nat → Nat → Bytes → Prop} (h : Live dbs nk B rs z last)
    {bs : List Bytes} (hs : Zip.restart z true = some (bs, z')) : Live dbs nk (B ++ bs) rs z' last := by
  refine ⟨?_, ?_⟩
  · obtain ⟨g1, g2⟩ := restart_keys hs
    rw [g1, g2]
    exact h.1
  · intro xs kd d hk hd
    obtain ⟨outs, d', p, dec, h1, h2, h3, h4, h5⟩ := h.2 xs kd d hk hd
    obtain ⟨outs2, d2, g1, g2, g3, g4, _⟩ := at_restart h2 hs
    refine ⟨outs ++ outs2, d2, fun _ _ => none, [], h1.append g1, g2, by rw [List.flatten_append, g3, List.append_nil]; exact h3, ?_, by simp⟩
    intro o ho
    rcases List.mem_append.1 ho with ho | ho
    · exact h4 o ho
    · exact g4 o ho

theorem Live.add {dbs : List Db} {nk : Nat} {B : List Bytes} {rs : List Zip.Rec} {z z' : Z} {last : Nat → Nat → Bytes → Prop} (h : Live dbs nk B rs z last)
    {r : Int} (ha : addKey z 1 = some (r, z')) : Live dbs (nk + 1) B rs z' last := by
  refine ⟨?_, ?_⟩
  · obtain ⟨g1, g2⟩ := addKey_keys h.1.2 ha
    have := h.1.1
    exact ⟨by omega, g2⟩
  · intro xs kd d hk hd
    obtain ⟨outs, d', p, dec, h1, h2, h3, h4, h5⟩ := h.2 xs kd d (by omega) hd
    exact ⟨outs, d', p, dec, h1, (at_add h2 ha).1, h3, h4, h5⟩

theorem Live.one {dbs : List Db} (hpl : ∀ db ∈ dbs, Plain db) {nk : Nat} {B : List Bytes} {rs : List Zip.Rec} {z z' : Z} {last : Nat → Nat → Bytes → Prop} (h : Live dbs nk B rs z last)
    {k s : Nat} {db : Db} (hdb : dbs[s]? = some db) (hk : k < nk) {r : Bytes} (hr : r.length = db.size) (hsh : Short db) (hop : Opens db r)
    (hfo : ∀ a, last k s a → Follows db a r) {n : Int} {bs : List Bytes} (hs : Zip.step z k s r = some (n, bs, z')) :
    Live dbs nk (B ++ bs) (rs ++ [(k, s, r)]) z' (fun k' s' a => if k' = k ∧ s' = s then a = r else last k' s' a) := by
  refine ⟨by rw [(step_keys hs).1, (step_keys hs).2]; exact h.1, ?_⟩
  intro xs kd d hk' hd
  obtain ⟨outs, d', p, dec, h1, h2, h3, h4, h5⟩ := h.2 xs kd d hk' hd
  have hfit : Fits dbs p k s [r] := by
    intro db' hdb'
    rw [hdb] at hdb'
    cases hdb'
    exact ⟨fun _ => ⟨Nat.le_refl _, hop, trivial⟩, fun a ha => ⟨hfo a (h5 k s a ha), trivial⟩⟩
  obtain ⟨outs2, d2, dec2, x, g1, g2, g3, g4, _, g6, g7⟩ := at_step hpl h2 hdb (by have := h.1.1; omega) (by omega) hr hsh.1 hsh.2 hfit hs
  refine ⟨outs ++ outs2, d2, _, dec2, h1.append g1, g2, ?_, ?_, ?_⟩
  · rw [List.flatten_append, List.append_assoc, g3, ← List.append_assoc]
    exact h3.append (.cons ⟨rfl, rfl, db, hdb, hr, g6, g7⟩ .nil)
  · intro o ho
    rcases List.mem_append.1 ho with ho | ho
    · exact h4 o ho
    · exact g4 o ho
  · intro k' s' a ha
    unfold Last.after at ha
    split at ha
    · rename_i he
      rw [if_pos he]
      simpa using ha.symm
    · rename_i he
      rw [if_neg he]
      exact h5 k' s' a ha

end Sis.Sic
