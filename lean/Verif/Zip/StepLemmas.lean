import Verif.Zip.WholeLemmas
import Verif.Zip.StepSpec
/-
Stepwise compression and decompression: one bag.
-/
namespace Sis.Zip
open Sis Sis.BitS

/-! ### Lists of records -/

theorem SameRecs.nil {dbs : List Dyn.Db} : SameRecs dbs [] [] := ⟨rfl, by simp⟩

theorem SameRecs.append {dbs : List Dyn.Db} {a b a' b' : List Rec} (h : SameRecs dbs a b) (h' : SameRecs dbs a' b') : SameRecs dbs (a ++ a') (b ++ b') := by
  refine ⟨by simp [h.1, h'.1], fun i k s r hi => ?_⟩
  by_cases hlt : i < b.length
  · rw [List.getElem?_append_left hlt] at hi
    rw [List.getElem?_append_left (by rw [h.1]; exact hlt)]
    exact h.2 i k s r hi
  · rw [List.getElem?_append_right (by omega)] at hi
    rw [List.getElem?_append_right (by rw [h.1]; omega), h.1]
    exact h'.2 _ k s r hi

theorem SameRecs.cons {dbs : List Dyn.Db} {k s : Nat} {db : Dyn.Db} (hdb : dbs[s]? = some db) {r r' : Bytes} (hl : r'.length = db.size) (h : SameRec db r' r) {a b : List Rec}
    (hs : SameRecs dbs a b) : SameRecs dbs ((k, s, r') :: a) ((k, s, r) :: b) := by
  refine ⟨by simp [hs.1], fun i k' s' r'' hi => ?_⟩
  cases i with
  | zero =>
    simp only [List.getElem?_cons_zero, Option.some.injEq, Prod.mk.injEq] at hi
    obtain ⟨rfl, rfl, rfl⟩ := hi
    refine ⟨r', rfl, fun db' h' => ?_⟩
    rw [hdb] at h'
    cases h'
    exact ⟨hl, h⟩
  | succ i => exact hs.2 i k' s' r'' (by simpa using hi)

/-! ### Reading a bag -/

/-- What reading a bag does to the memory. -/
structure Kept (db : Dyn.Db) (b : Nat) (mem mem' unz unz' : Bytes) : Prop where
  len : mem'.length = mem.length
  ulen : unz'.length = unz.length
  out : ∀ q, (q < b ∨ b + 1 + db.size ≤ q) → mem'[q]? = mem[q]?

/-- The memory knows a record. -/
def Knows (db : Dyn.Db) (mem : Bytes) (b : Nat) (a : Bytes) : Prop := mem[b]? = some 1 ∧ ∃ d, Dyn.elem mem (b + 1) db.size = some d ∧ SameRec db d a

theorem put_some_of {out e : Bytes} {b : Nat} (h : b + e.length ≤ out.length) : ∃ out', Dyn.put out b (0, e) = some out' := by
  unfold Dyn.put
  exact ⟨_, if_pos (by simpa using h)⟩

/-- Records that follow a known one. -/
theorem unRecs_more {dbs : List Dyn.Db} {t : Tab} {b k s : Nat} (hdb : dbs[s]? = some t.db) : ∀ (rs : List Bytes) (a : Bytes) (css : List (List (Nat × Nat))) (mem unz : Bytes),
    CodesAll t a rs css → Knows t.db mem b a → Linked t.db a rs → t.db.size ≤ unz.length → b + 1 + t.db.size ≤ mem.length →
    ∃ recs mem' unz', Rd (unRecs t b k s 1 rs.length mem unz) (callBits css.flatten) (recs, mem', unz') ∧ SameRecs dbs recs (rs.map fun r => (k, s, r)) ∧
      Kept t.db b mem mem' unz unz' ∧ Knows t.db mem' b (rs.getLast?.getD a) := by
  intro rs
  induction rs with
  | nil =>
    intro a css mem unz hc hk _ _ _
    have : css = [] := hc
    subst this
    refine ⟨[], mem, unz, ?_, .nil, ⟨rfl, rfl, fun _ _ => rfl⟩, hk⟩
    exact Rd_pure _
  | cons r rs ih =>
    intro a css mem unz hc hk hl hu hm
    obtain ⟨cs, css', rfl, hc1, hc2⟩ := hc
    obtain ⟨hk1, d, hk2, hk3⟩ := hk
    obtain ⟨unz1, r', e1, e2, e3, e4, e5⟩ := hc1 (some (mem, b + 1)) ⟨⟨d, hk2, hk3⟩, hl.1⟩ unz 0 (by omega)
    have hr' := (Dyn.elem_some e4).2.2
    obtain ⟨mem1, f1⟩ := put_some_of (out := mem) (e := r') (b := b + 1) (by omega)
    obtain ⟨mem2, f2⟩ := put_some_of (out := mem1) (e := [1]) (b := b) (by rw [Dyn.put_length f1]; simp; omega)
    obtain ⟨g1, g2, g3, g4⟩ := keep_ok hr' f1 f2
    obtain ⟨recs, mem', unz', i1, i2, i3, i4⟩ := ih r css' mem2 unz1 hc2 ⟨g2, r', g3, e5⟩ hl.2 (by omega) (by omega)
    refine ⟨(k, s, r') :: recs, mem', unz', ?_, ?_, ?_, ?_⟩
    · intro st rest hv
      rw [List.flatten_cons, callBits_append, List.append_assoc] at hv
      obtain ⟨j1, j2⟩ := e1.view_eq hv
      obtain ⟨j3, j4⟩ := i1.view_eq j2
      rw [List.length_cons]
      unfold unRecs
      rw [if_neg (by decide), j1, Option.bind_some]
      dsimp only
      rw [hk1, Option.bind_some, if_neg (by decide), e4, Option.bind_some, f1, Option.bind_some, f2, Option.bind_some, j3]
      simp [List.flatten_cons, callBits_append, adv, Nat.add_assoc]
    · exact .cons hdb hr' e5 i2
    · exact ⟨i3.len.trans g1, i3.ulen.trans e2, fun q hq => (i3.out q hq).trans (g4 q hq)⟩
    · rw [List.getLast?_cons]
      exact i4

/-- The first record. -/
theorem unRecs_first {dbs : List Dyn.Db} {t : Tab} {b k s : Nat} (hdb : dbs[s]? = some t.db) {r : Bytes} {css : List (List (Nat × Nat))} {mem unz : Bytes}
    (hc : CodesAll t (List.replicate t.db.size 0) [r] css) (ho : Opens t.db r) (hu : t.db.size ≤ unz.length) (hm : b + 1 + t.db.size ≤ mem.length) :
    ∃ recs mem' unz', Rd (unRecs t b k s 0 1 mem unz) (callBits css.flatten) (recs, mem', unz') ∧ SameRecs dbs recs [(k, s, r)] ∧
      Kept t.db b mem mem' unz unz' ∧ Knows t.db mem' b r := by
  obtain ⟨cs, css', rfl, hc1, hc2⟩ := hc
  have : css' = [] := hc2
  subst this
  obtain ⟨unz1, r', e1, e2, e3, e4, e5⟩ := hc1 none ⟨rfl, ho⟩ unz 0 (by omega)
  have hr' := (Dyn.elem_some e4).2.2
  obtain ⟨mem1, f1⟩ := put_some_of (out := mem) (e := r') (b := b + 1) (by omega)
  obtain ⟨mem2, f2⟩ := put_some_of (out := mem1) (e := [1]) (b := b) (by rw [Dyn.put_length f1]; simp; omega)
  obtain ⟨g1, g2, g3, g4⟩ := keep_ok hr' f1 f2
  obtain ⟨flag, hflag⟩ : ∃ flag, mem[b]? = some flag := ⟨_, List.getElem?_eq_getElem (by omega)⟩
  refine ⟨[(k, s, r')], mem2, unz1, ?_, .cons hdb hr' e5 .nil, ⟨g1, e2, g4⟩, ⟨g2, r', g3, e5⟩⟩
  intro st rest hv
  rw [List.flatten_cons, List.flatten_nil, List.append_nil] at hv
  obtain ⟨j1, j2⟩ := e1.view_eq hv
  unfold unRecs
  rw [if_pos rfl, j1, Option.bind_some]
  dsimp only
  rw [hflag, Option.bind_some, if_neg (by simp), e4, Option.bind_some, f1, Option.bind_some, f2, Option.bind_some]
  simp [unRecs]

/-- The memory of the writer for a key and a table: whether there was a record, and which. -/
def Wrote (db : Dyn.Db) (mem : Bytes) (b : Nat) (a : Option Bytes) : Prop := match a with
  | none => mem[b]? = some 0 ∧ Dyn.elem mem (b + 1) db.size = some (List.replicate db.size 0)
  | some a => mem[b]? = some 1 ∧ Dyn.elem mem (b + 1) db.size = some a

/-- A bag is read. -/
theorem unBag_ok {dbs : List Dyn.Db} {t : Tab} {tabs : List Tab} {keys sum k s : Nat} (hdb : dbs[s]? = some t.db) (ht : tabs[s]? = some t) (hk : k < keys)
    (hk32 : k < 2 ^ 32) (hs : s < 2 ^ 31) {p : Option Bytes} {rs : List Bytes} (hn : rs.length < 2 ^ 31) {css : List (List (Nat × Nat))} {flag : Nat} {mem unz : Bytes}
    (hflag : flag = if p = none then 0 else 1)
    (hc : CodesAll t (p.getD (List.replicate t.db.size 0)) rs css) (h0 : p = none → rs.length ≤ 1 ∧ Sound t.db rs) (h1 : ∀ a, p = some a → Linked t.db a rs)
    (hmem : ∀ a, p = some a → Knows t.db mem (k * sum + t.offset) a) (hu : t.db.size ≤ unz.length) (hm : k * sum + t.offset + 1 + t.db.size ≤ mem.length) :
    ∃ recs mem' unz', Rd (unBag tabs keys sum mem unz) (natBits 1 (if flag = 0 then 0 else 1) ++ (callBits (uintCalls k) ++ (callBits (uintCalls s) ++ callBits (uintCalls rs.length))) ++ callBits css.flatten)
        (recs, mem', unz') ∧ SameRecs dbs recs (rs.map fun r => (k, s, r)) ∧
      Kept t.db (k * sum + t.offset) mem mem' unz unz' ∧ ∀ a, rs.getLast?.or p = some a → Knows t.db mem' (k * sum + t.offset) a := by
  obtain ⟨recs, mem', unz', e1, e2, e3, e4⟩ : ∃ recs mem' unz', Rd (unRecs t (k * sum + t.offset) k s (if flag = 0 then 0 else 1) rs.length mem unz) (callBits css.flatten) (recs, mem', unz') ∧
      SameRecs dbs recs (rs.map fun r => (k, s, r)) ∧
      Kept t.db (k * sum + t.offset) mem mem' unz unz' ∧ ∀ a, rs.getLast?.or p = some a → Knows t.db mem' (k * sum + t.offset) a := by
    cases p with
    | none =>
      rw [if_pos rfl] at hflag
      subst hflag
      obtain ⟨q1, q2⟩ := h0 rfl
      match rs, q1 with
      | [], _ =>
        have : css = [] := hc
        subst this
        exact ⟨[], mem, unz, Rd_pure _, .nil, ⟨rfl, rfl, fun _ _ => rfl⟩, by simp⟩
      | [r], _ =>
        obtain ⟨recs, mem', unz', e1, e2, e3, e4⟩ := unRecs_first (k := k) hdb hc q2.1 hu hm
        refine ⟨recs, mem', unz', e1, e2, e3, ?_⟩
        intro a ha
        simp only [List.getLast?_singleton, Option.some_or, Option.some.injEq] at ha
        subst ha
        exact e4
      | _ :: _ :: _, h => simp at h
    | some a =>
      rw [if_neg (by simp)] at hflag
      subst hflag
      obtain ⟨recs, mem', unz', e1, e2, e3, e4⟩ := unRecs_more (b := k * sum + t.offset) (k := k) hdb rs a css mem unz hc (hmem a rfl) (h1 a rfl) hu hm
      refine ⟨recs, mem', unz', e1, e2, e3, ?_⟩
      intro a' ha
      have : rs.getLast?.getD a = a' := by
        cases hl : rs.getLast? with
        | none => rw [hl] at ha; simpa using ha
        | some x => rw [hl] at ha; simpa using ha
      rw [← this]
      exact e4
  refine ⟨recs, mem', unz', ?_, e2, e3, e4⟩
  intro st rest hv
  simp only [List.append_assoc] at hv
  obtain ⟨v1, w1⟩ := get_step 1 _ (by omega) (by omega) hv
  obtain ⟨v2, w2⟩ := (Rd_getUint k hk32).view_eq w1
  obtain ⟨v3, w3⟩ := (Rd_getUint s (by omega)).view_eq w2
  obtain ⟨v4, w4⟩ := (Rd_getUint rs.length (by omega)).view_eq w3
  obtain ⟨v5, w5⟩ := e1.view_eq w4
  have hz : (if flag = 0 then 0 else 1) % 2 ^ 1 = (if flag = 0 then 0 else 1) := by split <;> rfl
  rw [hz] at v1
  unfold unBag
  rw [v1, Option.bind_some]
  dsimp only
  rw [v2, Option.bind_some]
  dsimp only
  rw [v3, Option.bind_some]
  dsimp only
  rw [v4, Option.bind_some]
  dsimp only
  by_cases hr : rs.length = 0
  · rw [if_pos (.inr hr)]
    have hr' : rs = [] := List.eq_nil_of_length_eq_zero hr
    subst hr'
    have : css = [] := hc
    subst this
    simp only [List.length_nil, unRecs, Option.some.injEq, Prod.mk.injEq] at v5
    obtain ⟨⟨rfl, rfl, rfl⟩, -⟩ := v5
    simp [adv, callBits, Nat.add_assoc]
  · rw [if_neg (by omega), if_neg (by omega), ht]
    dsimp only
    rw [if_pos hk, v5]
    simp [adv, Nat.add_assoc]

/-- One more bag. -/
theorem unBags_snoc (tabs : List Tab) (keys sum : Nat) : ∀ (n : Nat) (mem unz : Bytes) (s : BitS), unBags tabs keys sum (n + 1) mem unz s =
    (unBags tabs keys sum n mem unz s).bind fun ((rs, mem, unz), s) => (unBag tabs keys sum mem unz s).map fun ((rs', mem, unz), s) => ((rs ++ rs', mem, unz), s) := by
  intro n
  induction n with
  | zero =>
    intro mem unz s
    unfold unBags
    rw [Option.bind_some]
    simp only [unBags, Option.map_some, List.append_nil, List.nil_append]
    cases unBag tabs keys sum mem unz s <;> rfl
  | succ n ih =>
    intro mem unz s
    conv => lhs; unfold unBags
    conv => rhs; unfold unBags
    cases unBag tabs keys sum mem unz s with
    | none => rfl
    | some v =>
      obtain ⟨⟨rs, mem, unz⟩, s⟩ := v
      simp only [Option.bind_some]
      rw [ih]
      cases unBags tabs keys sum n mem unz s with
      | none => rfl
      | some v =>
        obtain ⟨⟨rs', mem, unz⟩, s⟩ := v
        simp only [Option.bind_some, Option.map_some]
        cases unBag tabs keys sum mem unz s with
        | none => rfl
        | some v =>
          obtain ⟨⟨rs'', mem, unz⟩, s⟩ := v
          simp

theorem unBags_more {tabs : List Tab} {keys sum n : Nat} {mem unz m1 u1 m2 u2 : Bytes} {r1 r2 : List Rec} {l1 l2 : List Bool}
    (h1 : Rd (unBags tabs keys sum n mem unz) l1 (r1, m1, u1)) (h2 : Rd (unBag tabs keys sum m1 u1) l2 (r2, m2, u2)) :
    Rd (unBags tabs keys sum (n + 1) mem unz) (l1 ++ l2) (r1 ++ r2, m2, u2) := by
  intro s rest hv
  rw [List.append_assoc] at hv
  obtain ⟨a1, a2⟩ := h1.view_eq hv
  obtain ⟨b1, b2⟩ := h2.view_eq a2
  rw [unBags_snoc, a1, Option.bind_some]
  dsimp only
  rw [b1]
  simp [adv, Nat.add_assoc]

end Sis.Zip
