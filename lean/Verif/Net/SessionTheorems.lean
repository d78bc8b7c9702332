import Verif.Net.Sessions
/-
C34: a session number belongs to one session until it is closed, and is not given away again during the waiting time.

Specification.  From the calls and their results alone, `place` says for every number what it stands for: nothing yet, a
live session, or a closed session and when it was closed.
-/
namespace Sis.Sess
open Sis

/-! ### Specification -/

inductive Place
  | never
  | live (p : Nat)
  | closed (p : Nat) (t : Int)
deriving DecidableEq, Repr

/-- What number `i` stands for after one more call; `w` is the waiting time. -/
def after (w i : Int) (a : Place) : Ev × Out → Place
  | (.new _ p, .num j _) => if j = i then .live p else a
  | (.stop j now, _) =>
    if j = i then match a with
      | .live p => if w > 0 then .closed p now else .never
      | a => a
    else a
  | (.clear, _) => .never
  | _ => a

def place (w : Int) (h : List (Ev × Out)) (i : Int) : Place := h.foldl (after w i) .never

/-- The session a number stands for. -/
def Place.session : Place → Option Nat
  | .live p => some p
  | _ => none

/-- Whether the number can be given away at time `now`. -/
def Place.available (w now : Int) : Place → Prop
  | .never => True
  | .live _ => False
  | .closed _ t => now - t > w

/-- The sessions to be freed for a number. -/
def Place.kept : Place → List Nat
  | .never => []
  | .live p => [p]
  | .closed p _ => [p]

/-- Histories of a table with waiting time `w`. -/
inductive Hist (w : Int) : List (Ev × Out) → Tab → Prop
  | nil : Hist w [] (create w)
  | snoc {h s e s' o} : Hist w h s → step s e = some (s', o) → Hist w (h ++ [(e, o)]) s'

/-! ### Invariant -/

private def Same (w : Int) : Slot → Place → Prop
  | x, .never => x.used = .nouse ∧ x.ptr = none
  | x, .live p => x.used = .useed ∧ x.ptr = some p
  | x, .closed p t => x.used = .close ∧ x.ptr = some p ∧ x.stop = t ∧ w > 0

private structure Inv (w : Int) (h : List (Ev × Out)) (s : Tab) : Prop where
  wait : s.wait = w
  max : s.max = 1024
  len : s.slots.length = 1024
  same : ∀ i (hi : i < s.slots.length), Same w s.slots[i] (place w h i)
  out : ∀ i : Int, i < 0 ∨ i ≥ 1024 → place w h i = .never
  cur : s.cur = (s.slots.countP fun x => x.used == .useed : Nat)

private theorem place_snoc (w : Int) (h : List (Ev × Out)) (x : Ev × Out) (i : Int) :
    place w (h ++ [x]) i = after w i (place w h i) x := by
  simp [place, List.foldl_append]

private theorem takes_iff {w : Int} {s : Tab} {x : Slot} {a : Place} (hw : s.wait = w) (h : Same w x a) (now : Int) :
    takes s now x = true ↔ a.available w now := by
  cases a with
  | never => simp [takes, h.1, Place.available]
  | live p => simp [takes, h.1, Place.available]
  | closed p t =>
    have h4 : s.wait > 0 := by rw [hw]; exact h.2.2.2
    simp [takes, h.1, Place.available, h.2.2.1, hw] at h4 ⊢
    intro _; exact h4

private theorem Same.kept {w : Int} {x : Slot} {a : Place} (h : Same w x a) : x.ptr.toList = a.kept := by
  cases a with
  | never => simp [h.2, Place.kept]
  | live p => simp [h.2, Place.kept]
  | closed p t => simp [h.2.1, Place.kept]

/-- What `new` does: the smallest available number. -/
private theorem new_body {w : Int} {h : List (Ev × Out)} {s : Tab} (v : Inv w h s) (now : Int) (p : Nat) :
    (∃ (j : Nat) (s' : Tab), j < 1024 ∧ (place w h j).available w now ∧
      (∀ k : Nat, k < j → ¬ (place w h k).available w now) ∧
      step s (.new now p) = some (s', .num j ((place w h j).kept.map fun q => (q, 1))) ∧
      Inv w (h ++ [(.new now p, .num j ((place w h j).kept.map fun q => (q, 1)))]) s') ∨
    ((∀ k : Nat, k < 1024 → ¬ (place w h k).available w now) ∧ step s (.new now p) = none) := by
  have ht : s.slots.take s.max = s.slots := List.take_of_length_le (by rw [v.len, v.max]; omega)
  simp only [step, new, ht]
  cases hf : s.slots.findIdx? (takes s now) with
  | none =>
    right
    rw [List.findIdx?_eq_none_iff] at hf
    refine ⟨fun k hk ha => ?_, ?_⟩
    · have hk' : k < s.slots.length := by rw [v.len]; exact hk
      have := hf _ (List.getElem_mem hk')
      rw [(takes_iff v.wait (v.same k hk') now).2 ha] at this
      cases this
    · have hlen := v.len
      have hmax := v.max
      simp only [grow]
      rw [if_neg (by omega), if_pos (by omega)]
      rw [List.getElem?_eq_none (by simp; omega)]
      rfl
  | some j =>
    left
    rw [List.findIdx?_eq_some_iff_getElem] at hf
    obtain ⟨hj, h1, h2⟩ := hf
    have hj' : j < 1024 := by rw [← v.len]; exact hj
    have hsame := v.same j hj
    have hav := (takes_iff v.wait hsame now).1 h1
    have hge : s.slots[j]? = some s.slots[j] := List.getElem?_eq_getElem hj
    have hrel : (if s.slots[j].used = Use.nouse then ((s.slots[j], []) : Slot × List Rel) else freeSlot s.slots[j]).2 =
        (place w h j).kept.map fun q => (q, 1) := by
      cases hp : place w h j with
      | never => rw [hp] at hsame; simp [hsame.1, Place.kept]
      | live q => rw [hp] at hav; exact hav.elim
      | closed q t =>
        rw [hp] at hsame
        simp [hsame.1, freeSlot, hsame.2.1, Place.kept]
    refine ⟨j, ⟨s.wait, s.max, s.cur + 1, s.slots.set j ⟨.useed,
      (if s.slots[j].used = Use.nouse then ((s.slots[j], []) : Slot × List Rel) else freeSlot s.slots[j]).1.stop,
      some p⟩⟩, hj', hav, ?_, ?_, ⟨v.wait, v.max, by simp [v.len], ?_, ?_, ?_⟩⟩
    · intro k hk ha
      have hk' : k < s.slots.length := by omega
      exact h2 k hk ((takes_iff v.wait (v.same k hk') now).2 ha)
    · simp only [hge, Option.map_some]
      rw [← hrel]
    · intro i hi
      simp only [List.length_set] at hi
      rw [place_snoc]
      simp only [after, List.getElem_set]
      by_cases hij : j = i
      · subst hij
        simp [Same]
      · have hij' : ¬ ((j : Int) = i) := by omega
        simp only [if_neg hij', if_neg hij]
        exact v.same i hi
    · intro i hi
      rw [place_snoc]
      simp only [after]
      rw [if_neg (by omega)]
      exact v.out i hi
    · simp only [v.cur]
      rw [List.countP_set hj]
      have hnot : (s.slots[j].used == Use.useed) = false := by
        cases hp : place w h j with
        | never => rw [hp] at hsame; simp [hsame.1]
        | live q => rw [hp] at hav; exact hav.elim
        | closed q t => rw [hp] at hsame; simp [hsame.1]
      simp [hnot]

private theorem get_body {w : Int} {h : List (Ev × Out)} {s : Tab} (v : Inv w h s) (i : Int) :
    get s i = some (place w h i).session := by
  unfold get
  by_cases hi : i < 0 ∨ i ≥ s.max
  · rw [if_pos hi, v.out i (by rw [v.max] at hi; exact hi)]
    rfl
  · rw [if_neg hi]
    have hl : i.toNat < s.slots.length := by rw [v.len]; rw [v.max] at hi; omega
    have hs := v.same i.toNat hl
    have hn : ((i.toNat : Nat) : Int) = i := Int.toNat_of_nonneg (by omega)
    rw [hn] at hs
    rw [List.getElem?_eq_getElem hl]
    cases hp : place w h i with
    | never => rw [hp] at hs; simp [hs.1, Place.session]
    | live q => rw [hp] at hs; simp [hs.1, hs.2, Place.session]
    | closed q t => rw [hp] at hs; simp [hs.1, Place.session]

/-- The calls of the release function that closing makes. -/
def closing (w : Int) : Place → List Rel
  | .live p => [(p, if w > 0 then 0 else 1)]
  | _ => []

private theorem stop_body {w : Int} {h : List (Ev × Out)} {s : Tab} (v : Inv w h s) (i now : Int) :
    ∃ s', step s (.stop i now) = some (s', .num (if (place w h i).session.isSome then i else -1)
        (closing w (place w h i))) ∧
      ∀ o, Inv w (h ++ [(.stop i now, o)]) s' := by
  simp only [step, stop]
  by_cases hi : i < 0 ∨ i ≥ s.max
  · rw [if_pos hi]
    have hn := v.out i (by rw [v.max] at hi; exact hi)
    refine ⟨s, by simp [hn, Place.session, closing], fun o => ⟨v.wait, v.max, v.len, ?_, ?_, v.cur⟩⟩
    · intro k hk
      rw [place_snoc]
      simp only [after]
      rw [if_neg (by rw [v.len] at hk; rw [v.max] at hi; omega)]
      exact v.same k hk
    · intro k hk
      rw [place_snoc]
      simp only [after, v.out k hk]
      split <;> rfl
  · rw [if_neg hi]
    have hl : i.toNat < s.slots.length := by rw [v.len]; rw [v.max] at hi; omega
    have hs := v.same i.toNat hl
    have hn : ((i.toNat : Nat) : Int) = i := Int.toNat_of_nonneg (by omega)
    rw [hn] at hs
    rw [List.getElem?_eq_getElem hl]
    simp only
    by_cases hu : s.slots[i.toNat].used ≠ .useed
    · rw [if_pos hu]
      have hnl : ∀ p, place w h i ≠ .live p := by
        intro p hp; rw [hp] at hs; exact hu hs.1
      refine ⟨s, ?_, fun o => ⟨v.wait, v.max, v.len, ?_, ?_, v.cur⟩⟩
      · cases hp : place w h i with
        | never => simp [Place.session, closing]
        | live p => exact absurd hp (hnl p)
        | closed p t => simp [Place.session, closing]
      · intro k hk
        rw [place_snoc]
        simp only [after]
        by_cases hik : i = k
        · rw [if_pos hik]
          subst hik
          cases hp : place w h k with
          | never => have := v.same k hk; rwa [hp] at this
          | live p => exact absurd hp (hnl p)
          | closed p t => have := v.same k hk; rwa [hp] at this
        · rw [if_neg hik]; exact v.same k hk
      · intro k hk
        rw [place_snoc]
        simp only [after, v.out k hk]
        split <;> rfl
    · rw [if_neg hu]
      have hu : s.slots[i.toNat].used = .useed := Classical.byContradiction hu
      have ⟨p, hp⟩ : ∃ p, place w h i = .live p := by
        cases hp : place w h i with
        | never => rw [hp] at hs; rw [hs.1] at hu; cases hu
        | live p => exact ⟨p, rfl⟩
        | closed p t => rw [hp] at hs; rw [hs.1] at hu; cases hu
      rw [hp] at hs
      have hcp : s.slots.countP (fun x => x.used == .useed) > 0 := by
        rw [gt_iff_lt, List.countP_pos_iff]
        exact ⟨_, List.getElem_mem hl, by simp [hu]⟩
      by_cases hw : s.wait > 0
      · rw [if_pos hw]
        refine ⟨⟨s.wait, s.max, s.cur - 1, s.slots.set i.toNat ⟨.close, now, s.slots[i.toNat].ptr⟩⟩, by
          simp only [Option.map_some, hp, Place.session, closing, hs.2, Option.isSome_some, if_true,
            if_pos (v.wait ▸ hw : w > 0)]; rfl, fun o => ⟨v.wait, v.max, by simp [v.len], ?_, ?_, ?_⟩⟩
        · intro k hk
          simp only [List.length_set] at hk
          rw [place_snoc]
          simp only [after, List.getElem_set]
          by_cases hik : i.toNat = k
          · have : i = k := by omega
            subst hik
            rw [if_pos rfl, if_pos this, hn, hp]
            simp only [if_pos (v.wait ▸ hw : w > 0)]
            exact ⟨rfl, hs.2, rfl, v.wait ▸ hw⟩
          · rw [if_neg hik, if_neg (by omega)]
            exact v.same k hk
        · intro k hk
          rw [place_snoc]
          simp only [after, v.out k hk]
          split <;> rfl
        · simp only [v.cur]
          rw [List.countP_set hl]
          simp [hu]
          omega
      · rw [if_neg hw]
        refine ⟨⟨s.wait, s.max, s.cur - 1, s.slots.set i.toNat ⟨.nouse, 0, none⟩⟩, by
          simp only [Option.map_some, hp, Place.session, closing, freeSlot, hs.2, Option.isSome_some, if_true,
            if_neg (v.wait ▸ hw : ¬ w > 0)]; rfl, fun o => ⟨v.wait, v.max, by simp [v.len], ?_, ?_, ?_⟩⟩
        · intro k hk
          simp only [List.length_set] at hk
          rw [place_snoc]
          simp only [after, List.getElem_set]
          by_cases hik : i.toNat = k
          · have : i = k := by omega
            subst hik
            rw [if_pos rfl, if_pos this, hn, hp]
            simp only [if_neg (v.wait ▸ hw : ¬ w > 0)]
            exact ⟨rfl, rfl⟩
          · rw [if_neg hik, if_neg (by omega)]
            exact v.same k hk
        · intro k hk
          rw [place_snoc]
          simp only [after, v.out k hk]
          split <;> rfl
        · simp only [v.cur]
          rw [List.countP_set hl]
          simp [hu]
          omega

private theorem clear_body {w : Int} {h : List (Ev × Out)} {s : Tab} (v : Inv w h s) :
    ∃ s', step s .clear = some (s', .num 0 ((List.range 1024).flatMap fun i : Nat =>
        (place w h i).kept.map fun p => (p, 1))) ∧ ∀ o, Inv w (h ++ [(.clear, o)]) s' := by
  have hlen := v.len
  have hmax := v.max
  have ht : s.slots.take s.max = s.slots := List.take_of_length_le (by omega)
  have hd : s.slots.drop s.max = [] := List.drop_of_length_le (by omega)
  have hk : (s.slots.flatMap fun x => x.ptr.toList.map fun p => ((p, 1) : Rel)) =
      (List.range 1024).flatMap fun i : Nat => (place w h i).kept.map fun p => (p, 1) := by
    have : s.slots.map (fun x => x.ptr.toList) = (List.range 1024).map fun i : Nat => (place w h i).kept := by
      refine List.ext_getElem (by simp [hlen]) fun i h1 h2 => ?_
      simp only [List.getElem_map, List.getElem_range]
      exact (v.same i (by simpa using h1)).kept
    rw [List.flatMap_def, List.flatMap_def]
    have h3 := congrArg (List.map (List.map fun p => ((p, 1) : Rel))) this
    rw [List.map_map, List.map_map] at h3
    exact congrArg List.flatten h3
  simp only [step, clear, ht, hd, List.append_nil, hk]
  rw [if_neg (by omega)]
  refine ⟨⟨s.wait, s.max, 0, s.slots.map fun _ => {}⟩, by rw [Option.map_some], fun o => ⟨v.wait, v.max, by simp [v.len], ?_, ?_, ?_⟩⟩
  · intro i hi
    rw [place_snoc]
    simp only [after, List.getElem_map]
    exact ⟨rfl, rfl⟩
  · intro i _
    rw [place_snoc]
    rfl
  · have : (s.slots.map fun _ => ({} : Slot)).countP (fun x => x.used == .useed) = 0 := by
      rw [List.countP_eq_zero]
      simp
    simp only [this]
    rfl

private theorem same_live {w : Int} {h : List (Ev × Out)} {s : Tab} (v : Inv w h s) (i : Nat) (hi : i < s.slots.length) :
    (s.slots[i].used == .useed) = true ↔ (place w h i).session.isSome = true := by
  have := v.same i hi
  cases hp : place w h i with
  | never => rw [hp] at this; simp [this.1, Place.session]
  | live p => rw [hp] at this; simp [this.1, Place.session]
  | closed p t => rw [hp] at this; simp [this.1, Place.session]

private theorem cur_body {w : Int} {h : List (Ev × Out)} {s : Tab} (v : Inv w h s) :
    s.cur = ((List.range 1024).countP fun i : Nat => (place w h i).session.isSome) := by
  rw [v.cur]
  have : s.slots.map (fun x => x.used == .useed) = (List.range 1024).map fun i : Nat => (place w h i).session.isSome := by
    refine List.ext_getElem (by simp [v.len]) fun i h1 h2 => ?_
    simp only [List.getElem_map, List.getElem_range]
    rw [Bool.eq_iff_iff]
    exact same_live v i (by simpa using h1)
  have h1 := congrArg (List.countP id) this
  rw [List.countP_map, List.countP_map] at h1
  exact congrArg _ h1

private theorem first_body {w : Int} {h : List (Ev × Out)} {s : Tab} (v : Inv w h s) :
    (∃ j : Nat, first s = some (j : Int) ∧ (place w h j).session.isSome ∧ ∀ k : Nat, k < j → (place w h k).session = none) ∨
    (first s = some (-1) ∧ ∀ k, (place w h k).session = none) := by
  have hlen := v.len
  have hmax := v.max
  have ht : s.slots.take s.max = s.slots := List.take_of_length_le (by omega)
  simp only [first, ht]
  cases hf : s.slots.findIdx? (fun x => x.used == .useed) with
  | some j =>
    left
    rw [List.findIdx?_eq_some_iff_getElem] at hf
    obtain ⟨hj, h1, h2⟩ := hf
    refine ⟨j, rfl, (same_live v j hj).1 h1, fun k hk => ?_⟩
    have := h2 k hk
    have hk' : k < s.slots.length := by omega
    rw [same_live v k hk'] at this
    simpa using this
  | none =>
    right
    rw [List.findIdx?_eq_none_iff] at hf
    simp only
    rw [if_neg (by omega)]
    refine ⟨rfl, fun k => ?_⟩
    by_cases hk : k < 0 ∨ k ≥ 1024
    · rw [v.out k hk]; rfl
    · have hk' : k.toNat < s.slots.length := by omega
      have hn : ((k.toNat : Nat) : Int) = k := Int.toNat_of_nonneg (by omega)
      have := hf _ (List.getElem_mem hk')
      have h3 := same_live v k.toNat hk'
      rw [hn] at h3
      rw [this] at h3
      simpa using h3

/-- The numbers passed by a search that starts behind `i` and comes round to `j`. -/
def passed (i j k : Int) : Prop := if i < j then i < k ∧ k < j else i < k ∨ k < j

private theorem loop_up (s : Tab) (index : Int) (hlen : s.slots.length = s.max) (j : Nat) (hj : j < s.slots.length)
    (hu : s.slots[j].used = .useed) : ∀ (d a k : Nat), a + d = j → d < k →
      (∀ m (hm : m < s.slots.length), a ≤ m → m < j → s.slots[m].used ≠ .useed) →
      (index < a ∨ index ≥ j) → nextLoop s index k a = some (j : Int) := by
  intro d
  induction d with
  | zero =>
    intro a k had hk _ _
    obtain ⟨k, rfl⟩ : ∃ n, k = n + 1 := ⟨k - 1, by omega⟩
    have : a = j := by omega
    subst this
    rw [nextLoop]
    by_cases hi : (a : Int) = index
    · rw [if_pos hi, hi]
    · rw [if_neg hi]
      simp only [if_neg (by omega : ¬ (a : Int) > s.max - 1)]
      rw [if_neg (by omega), Int.toNat_natCast, List.getElem?_eq_getElem hj]
      simp only [hu, if_true]
  | succ d ih =>
    intro a k had hk hn hi
    obtain ⟨k, rfl⟩ : ∃ n, k = n + 1 := ⟨k - 1, by omega⟩
    rw [nextLoop, if_neg (by omega)]
    simp only [if_neg (by omega : ¬ (a : Int) > s.max - 1)]
    have ha : a < s.slots.length := by omega
    rw [if_neg (by omega), Int.toNat_natCast, List.getElem?_eq_getElem ha]
    simp only [if_neg (hn a ha (Nat.le_refl a) (by omega))]
    exact ih (a + 1) k (by omega) (by omega) (fun m hm h1 h2 => hn m hm (by omega) h2) (by omega)

private theorem loop_end (s : Tab) (index : Int) (hlen : s.slots.length = s.max) : ∀ (d a k : Nat), a + d = s.max →
      (∀ m (hm : m < s.slots.length), a ≤ m → s.slots[m].used ≠ .useed) →
      index < a → nextLoop s index (k + d) a = nextLoop s index k s.max := by
  intro d
  induction d with
  | zero =>
    intro a k had _ _
    have : a = s.max := by omega
    rw [this]; rfl
  | succ d ih =>
    intro a k had hn hi
    rw [← Nat.add_assoc, nextLoop, if_neg (by omega)]
    simp only [if_neg (by omega : ¬ (a : Int) > s.max - 1)]
    have ha : a < s.slots.length := by omega
    rw [if_neg (by omega), Int.toNat_natCast, List.getElem?_eq_getElem ha]
    simp only [if_neg (hn a ha (Nat.le_refl a))]
    exact ih (a + 1) k (by omega) (fun m hm h1 => hn m hm (by omega)) (by omega)

/-- From behind the last slot the search goes on with the first live session. -/
private theorem loop_wrap (s : Tab) (index : Int) (hlen : s.slots.length = s.max) (j : Nat) (hj : j < s.slots.length)
    (hu : s.slots[j].used = .useed)
    (hn : ∀ m (hm : m < s.slots.length), m < j → s.slots[m].used ≠ .useed) (hi : index ≥ j) (start : Int)
    (h1 : start > s.max - 1) (h2 : start ≠ index) (k : Nat) (hk : j < k) : nextLoop s index k start = some (j : Int) := by
  obtain ⟨k, rfl⟩ : ∃ n, k = n + 1 := ⟨k - 1, by omega⟩
  rw [nextLoop, if_neg h2]
  simp only [if_pos h1]
  have h0 : 0 < s.slots.length := by omega
  rw [if_neg (by omega), Int.toNat_zero, List.getElem?_eq_getElem h0]
  by_cases hj0 : j = 0
  · subst hj0
    simp only [hu, if_true]
    rfl
  · simp only [if_neg (hn 0 h0 (by omega))]
    exact loop_up s index hlen j hj hu (j - 1) 1 k (by omega) (by omega) (fun m hm _ h => hn m hm h) (by omega)

private theorem least (P : Nat → Prop) (n : Nat) (h : P n) : ∃ m, P m ∧ m ≤ n ∧ ∀ k, k < m → ¬ P k := by
  induction n using Nat.strongRecOn with
  | ind n ih =>
    by_cases hx : ∃ k, k < n ∧ P k
    · obtain ⟨k, hk, hp⟩ := hx
      obtain ⟨m, h1, h2, h3⟩ := ih k hk hp
      exact ⟨m, h1, by omega, h3⟩
    · exact ⟨n, h, Nat.le_refl n, fun k hk hp => hx ⟨k, hk, hp⟩⟩

private theorem next_body {w : Int} {h : List (Ev × Out)} {s : Tab} (v : Inv w h s) (i : Int) (hi : i ≥ -1) :
    (∃ j : Int, next s i = some j ∧ (place w h j).session.isSome ∧
      ∀ k, passed i j k → (place w h k).session = none) ∨
    (next s i = some (-1) ∧ ∀ k, (place w h k).session = none) := by
  have hlen := v.len
  have hmax := v.max
  have hlm : s.slots.length = s.max := by omega
  have dead : ∀ k : Int, (∀ hk : k.toNat < s.slots.length, 0 ≤ k → s.slots[k.toNat].used ≠ .useed) →
      (place w h k).session = none := by
    intro k hk
    by_cases ho : k < 0 ∨ k ≥ 1024
    · rw [v.out k ho]; rfl
    · have hk' : k.toNat < s.slots.length := by omega
      have h3 := same_live v k.toNat hk'
      rw [Int.toNat_of_nonneg (by omega)] at h3
      have := hk hk' (by omega)
      cases hc : (place w h k).session with
      | none => rfl
      | some q => rw [hc] at h3; exact absurd (by simpa using h3) this
  by_cases hc : s.cur < 1
  · right
    refine ⟨by rw [next, if_pos hc], fun k => dead k fun hk _ hu => ?_⟩
    have h0 : s.slots.countP (fun x => x.used == .useed) = 0 := by have := v.cur; omega
    rw [List.countP_eq_zero] at h0
    exact h0 _ (List.getElem_mem hk) (by simp [hu])
  · left
    rw [next, if_neg hc]
    let P : Nat → Prop := fun m => ∃ hm : m < s.slots.length, s.slots[m].used = .useed
    have live : ∀ m, P m → (place w h (m : Int)).session.isSome := by
      rintro m ⟨hm, hu⟩
      exact (same_live v m hm).1 (by simp [hu])
    obtain ⟨j0, ⟨hj0, hu0⟩, -, hl0⟩ : ∃ j, P j ∧ j ≤ s.slots.length ∧ ∀ k, k < j → ¬ P k := by
      have h1 : 0 < s.slots.countP (fun x => x.used == .useed) := by have := v.cur; omega
      rw [List.countP_pos_iff] at h1
      obtain ⟨x, hx, hxu⟩ := h1
      obtain ⟨m, hm, rfl⟩ := List.getElem_of_mem hx
      obtain ⟨j, a, b, c⟩ := least P m ⟨hm, by simpa using hxu⟩
      exact ⟨j, a, by omega, c⟩
    by_cases hex : ∃ m : Nat, i < m ∧ P m
    · obtain ⟨m, hm⟩ := hex
      obtain ⟨j, ⟨h1, hj, hu⟩, -, h3⟩ := least (fun m => i < m ∧ P m) m hm
      have hcast : i + 1 = ((i + 1).toNat : Nat) := (Int.toNat_of_nonneg (by omega)).symm
      refine ⟨j, ?_, live j ⟨hj, hu⟩, fun k hk => dead k fun hk' hk0 hu' => ?_⟩
      · rw [hcast]
        exact loop_up s i hlm j hj hu (j - (i + 1).toNat) _ _ (by omega) (by omega)
          (fun m hm a b hx => h3 m b ⟨by omega, hm, hx⟩) (by omega)
      · rw [passed, if_pos h1] at hk
        exact h3 k.toNat (by omega) ⟨by omega, hk', hu'⟩
    · have hj0i : (j0 : Int) ≤ i := by
        refine Classical.byContradiction fun hx => hex ⟨j0, by omega, hj0, hu0⟩
      refine ⟨j0, ?_, live j0 ⟨hj0, hu0⟩, fun k hk => dead k fun hk' hk0 hu' => ?_⟩
      · have hw := loop_wrap s i hlm j0 hj0 hu0 (fun m hm a hx => hl0 m a ⟨hm, hx⟩) hj0i
        by_cases hbig : i + 1 > s.max - 1
        · exact hw (i + 1) hbig (by omega) _ (by omega)
        · have hcast : i + 1 = ((i + 1).toNat : Nat) := (Int.toNat_of_nonneg (by omega)).symm
          have he := loop_end s i hlm (s.max - (i + 1).toNat) (i + 1).toNat (s.max + 2 + (i + 1).toNat) (by omega)
            (fun m hm a hx => hex ⟨m, by omega, hm, hx⟩) (by omega)
          rw [← hcast, show s.max + 2 + (i + 1).toNat + (s.max - (i + 1).toNat) = 2 * s.max + 2 by omega] at he
          rw [he]
          exact hw s.max (by omega) (by omega) _ (by omega)
      · rw [passed, if_neg (by omega)] at hk
        rcases hk with hk | hk
        · exact hex ⟨k.toNat, by omega, hk', hu'⟩
        · exact hl0 k.toNat (by omega) ⟨hk', hu'⟩

/-! ### Every history -/

private theorem inv_create (w : Int) : Inv w [] (create w) := by
  refine ⟨rfl, rfl, List.length_replicate, ?_, fun i _ => rfl, ?_⟩
  · intro i hi
    simp only [create, List.getElem_replicate]
    exact ⟨rfl, rfl⟩
  · have : (List.replicate 1024 ({} : Slot)).countP (fun x => x.used == .useed) = 0 := by
      rw [List.countP_eq_zero]
      intro x hx
      rw [(List.mem_replicate.1 hx).2]
      simp
    simp only [create, this]
    rfl

private theorem inv_keep {w : Int} {h : List (Ev × Out)} {s : Tab} (v : Inv w h s) {x : Ev × Out}
    (hx : ∀ i a, after w i a x = a) : Inv w (h ++ [x]) s :=
  ⟨v.wait, v.max, v.len, fun i hi => by rw [place_snoc, hx]; exact v.same i hi,
    fun i hi => by rw [place_snoc, hx]; exact v.out i hi, v.cur⟩

private theorem inv_hist {w : Int} {h : List (Ev × Out)} {s : Tab} (H : Hist w h s) : Inv w h s := by
  induction H with
  | nil => exact inv_create w
  | @snoc h s e s' o H hs v =>
    cases e with
    | new now p =>
      rcases new_body v now p with ⟨j, s1, -, -, -, e1, v1⟩ | ⟨-, e1⟩
      · rw [e1] at hs; cases hs; exact v1
      · rw [e1] at hs; cases hs
    | stop i now =>
      obtain ⟨s1, e1, v1⟩ := stop_body v i now
      rw [e1] at hs; cases hs; exact v1 _
    | clear =>
      obtain ⟨s1, e1, v1⟩ := clear_body v
      rw [e1] at hs; cases hs; exact v1 _
    | get i =>
      rw [step, Option.map_eq_some_iff] at hs
      obtain ⟨_, _, hs⟩ := hs; cases hs
      exact inv_keep v fun _ _ => rfl
    | first =>
      rw [step, Option.map_eq_some_iff] at hs
      obtain ⟨_, _, hs⟩ := hs; cases hs
      exact inv_keep v fun _ _ => rfl
    | next i =>
      rw [step, Option.map_eq_some_iff] at hs
      obtain ⟨_, _, hs⟩ := hs; cases hs
      exact inv_keep v fun _ _ => rfl
    | uses =>
      cases hs
      exact inv_keep v fun _ _ => rfl

/-! ### Theorems -/

/-- C34, part: looking a number up gives the session that was given this number and is not closed, and nothing for any
other number, however far out. -/
theorem C34_lookup_partial {w : Int} {h : List (Ev × Out)} {s : Tab} (H : Hist w h s) (i : Int) :
    step s (.get i) = some (s, .ptr (place w h i).session) := by
  rw [step, get_body (inv_hist H)]; rfl

/-- C34, part: a new session gets the smallest number that is neither live nor closed less than the waiting time ago.
The session that was closed under this number is freed, once, and no other. -/
theorem C34_new_number_partial {w : Int} {h : List (Ev × Out)} {s s' : Tab} {o : Out} (H : Hist w h s) (now : Int)
    (p : Nat) (hs : step s (.new now p) = some (s', o)) :
    ∃ j : Nat, j < 1024 ∧ (place w h j).session = none ∧ (∀ q t, place w h j = .closed q t → now - t > w) ∧
      (∀ k : Nat, k < j → place w h k ≠ .never ∧ ∀ q t, place w h k = .closed q t → now - t ≤ w) ∧
      o = .num j (match place w h j with | .closed q _ => [(q, 1)] | _ => []) ∧
      step s' (.get j) = some (s', .ptr (some p)) ∧
      ∀ i : Int, i ≠ j → step s' (.get i) = some (s', .ptr (place w h i).session) := by
  have H' := Hist.snoc H hs
  rcases new_body (inv_hist H) now p with ⟨j, s1, hj, ha, hl, e1, -⟩ | ⟨-, e1⟩
  · rw [e1] at hs
    cases hs
    refine ⟨j, hj, ?_, ?_, ?_, ?_, ?_, ?_⟩
    · cases hp : place w h j with
      | live q => rw [hp] at ha; exact ha.elim
      | _ => rfl
    · intro q t hp; rw [hp] at ha; exact ha
    · intro k hk
      have := hl k hk
      refine ⟨fun hp => this (by rw [hp]; trivial), fun q t hp => ?_⟩
      rw [hp] at this
      exact Int.not_lt.1 this
    · cases hp : place w h j with
      | live q => rw [hp] at ha; exact ha.elim
      | _ => rfl
    · rw [C34_lookup_partial H', place_snoc]
      simp [after, Place.session]
    · intro i hi
      rw [C34_lookup_partial H', place_snoc]
      simp only [after, if_neg (Ne.symm hi)]
  · rw [e1] at hs; cases hs

/-- C34, part: a new session is taken exactly if one of the first 1024 numbers is free or waited long enough; otherwise
the code writes outside of its arrays. -/
theorem C34_new_defined_partial {w : Int} {h : List (Ev × Out)} {s : Tab} (H : Hist w h s) (now : Int) (p : Nat) :
    (step s (.new now p)).isSome ↔
      ∃ j : Nat, j < 1024 ∧ (place w h j = .never ∨ ∃ q t, place w h j = .closed q t ∧ now - t > w) := by
  rcases new_body (inv_hist H) now p with ⟨j, s1, hj, ha, hl, e1, -⟩ | ⟨hn, e1⟩
  · rw [e1]
    refine ⟨fun _ => ⟨j, hj, ?_⟩, fun _ => rfl⟩
    cases hp : place w h j with
    | never => exact .inl rfl
    | live q => rw [hp] at ha; exact ha.elim
    | closed q t => rw [hp] at ha; exact .inr ⟨q, t, rfl, ha⟩
  · rw [e1]
    refine ⟨nofun, ?_⟩
    rintro ⟨j, hj, hp | ⟨q, t, hp, hx⟩⟩
    · exact (hn j hj (by rw [hp]; trivial)).elim
    · exact (hn j hj (by rw [hp]; exact hx)).elim

/-- C34, part: closing works for every number.  A live session is told so once, with the mode "closed" if it is kept for
the waiting time and "free" if not; for any other number nothing is done and the answer is -1. -/
theorem C34_stop_partial {w : Int} {h : List (Ev × Out)} {s : Tab} (H : Hist w h s) (i now : Int) :
    ∃ s', step s (.stop i now) = some (s', match place w h i with
        | .live p => .num i [(p, if w > 0 then 0 else 1)]
        | _ => .num (-1) []) ∧
      ∀ k, step s' (.get k) = some (s', .ptr (if k = i then none else (place w h k).session)) := by
  obtain ⟨s', e1, -⟩ := stop_body (inv_hist H) i now
  have H' := Hist.snoc H e1
  refine ⟨s', ?_, fun k => ?_⟩
  · rw [e1]
    cases place w h i <;> rfl
  · rw [C34_lookup_partial H', place_snoc]
    simp only [after]
    by_cases hk : k = i
    · rw [if_pos hk.symm, if_pos hk]
      cases place w h k with
      | live p => by_cases hw : w > 0 <;> simp [hw, Place.session]
      | _ => rfl
    · rw [if_neg (Ne.symm hk), if_neg hk]

/-- C34, part: clearing frees every session that is live or kept, once each, in the order of the numbers. -/
theorem C34_clear_partial {w : Int} {h : List (Ev × Out)} {s : Tab} (H : Hist w h s) :
    ∃ s', step s .clear = some (s', .num 0 ((List.range 1024).flatMap fun i : Nat => match place w h i with
        | .never => []
        | .live p => [(p, 1)]
        | .closed p _ => [(p, 1)])) ∧
      (∀ k, step s' (.get k) = some (s', .ptr none)) ∧ step s' .uses = some (s', .num 0 []) := by
  obtain ⟨s', e1, v1⟩ := clear_body (inv_hist H)
  have H' := Hist.snoc H e1
  refine ⟨s', ?_, fun k => ?_, ?_⟩
  · rw [e1]
    have : ∀ i : Nat, ((place w h i).kept.map fun p => ((p, 1) : Rel)) = match place w h i with
        | .never => []
        | .live p => [(p, 1)]
        | .closed p _ => [(p, 1)] := by
      intro i; cases place w h i <;> rfl
    simp only [this]
  · rw [C34_lookup_partial H', place_snoc]
    rfl
  · have h0 := cur_body (v1 (.num 0 []))
    have h1 : (List.range 1024).countP (fun i : Nat => (place w (h ++ [(.clear, .num 0 [])]) i).session.isSome) = 0 := by
      rw [List.countP_eq_zero]
      intro i _
      rw [place_snoc]
      simp [after, Place.session]
    rw [h1] at h0
    rw [step, h0]
    rfl

/-- C34, part: the number of sessions in use is the number of live ones. -/
theorem C34_uses_partial {w : Int} {h : List (Ev × Out)} {s : Tab} (H : Hist w h s) :
    step s .uses = some (s, .num ((List.range 1024).countP fun i : Nat => (place w h i).session.isSome) []) := by
  rw [step, cur_body (inv_hist H)]

/-- C34, part: the walk starts with the smallest live number, or -1 if there is none. -/
theorem C34_first_partial {w : Int} {h : List (Ev × Out)} {s : Tab} (H : Hist w h s) :
    (∃ j : Nat, step s .first = some (s, .num j []) ∧ (place w h j).session ≠ none ∧
      ∀ k : Int, k < j → (place w h k).session = none) ∨
    (step s .first = some (s, .num (-1) []) ∧ ∀ k, (place w h k).session = none) := by
  have v := inv_hist H
  rcases first_body v with ⟨j, e1, e2, e3⟩ | ⟨e1, e2⟩
  · refine .inl ⟨j, by rw [step, e1]; rfl, (by intro hx; rw [hx] at e2; cases e2), fun k hk => ?_⟩
    by_cases h0 : k < 0
    · rw [v.out k (.inl h0)]; rfl
    · have := e3 k.toNat (by omega)
      rwa [Int.toNat_of_nonneg (by omega)] at this
  · exact .inr ⟨by rw [step, e1]; rfl, e2⟩

/-- C34, part: the walk goes to the next live number, behind the last one again to the smallest: no live number is left
out.  It is -1 if none is live. -/
theorem C34_next_partial {w : Int} {h : List (Ev × Out)} {s : Tab} (H : Hist w h s) (i : Int) (hi : i ≥ -1) :
    (∃ j : Int, step s (.next i) = some (s, .num j []) ∧ (place w h j).session ≠ none ∧
      ∀ k, (if i < j then i < k ∧ k < j else i < k ∨ k < j) → (place w h k).session = none) ∨
    (step s (.next i) = some (s, .num (-1) []) ∧ ∀ k, (place w h k).session = none) := by
  rcases next_body (inv_hist H) i hi with ⟨j, e1, e2, e3⟩ | ⟨e1, e2⟩
  · exact .inl ⟨j, by rw [step, e1]; rfl, (by intro hx; rw [hx] at e2; cases e2), fun k hk => e3 k hk⟩
  · exact .inr ⟨by rw [step, e1]; rfl, e2⟩

/-! ### Where the property fails -/

private theorem fill (w now : Int) : ∀ n, n ≤ 1024 → ∃ h s, Hist w h s ∧
    h.map Prod.fst = (List.range n).map (fun k => Ev.new now k) ∧ (∀ k : Nat, k < n → place w h k = .live k) ∧
    ∀ k : Nat, n ≤ k → place w h k = .never := by
  intro n
  induction n with
  | zero => exact fun _ => ⟨[], _, .nil, rfl, (by intro k hk; omega), fun _ _ => rfl⟩
  | succ n ih =>
    intro hn
    obtain ⟨h, s, H, h1, h2, h3⟩ := ih (by omega)
    rcases new_body (inv_hist H) now n with ⟨j, s1, hj, ha, hl, e1, -⟩ | ⟨hx, -⟩
    · have hjn : j = n := by
        rcases Nat.lt_trichotomy j n with h | h | h
        · rw [h2 j h] at ha; exact ha.elim
        · exact h
        · exact (hl n h (by rw [h3 n (Nat.le_refl n)]; trivial)).elim
      subst hjn
      refine ⟨_, s1, .snoc H e1, by rw [List.map_append, h1, List.range_succ, List.map_append]; rfl, ?_, ?_⟩
      · intro k hk
        rw [place_snoc]
        simp only [after]
        by_cases hkj : (j : Int) = k
        · rw [if_pos hkj]; congr 1; omega
        · rw [if_neg hkj]; exact h2 k (by omega)
      · intro k hk
        rw [place_snoc]
        simp only [after]
        rw [if_neg (by omega)]
        exact h3 k (by omega)
    · exact (hx n (by omega) (by rw [h3 n (Nat.le_refl n)]; trivial)).elim

/-- C34 is violated: with 1024 sessions open the next one is written outside of the arrays, whatever the waiting time. -/
theorem C34_violated (w now : Int) : ∃ h s, Hist w h s ∧
    h.map Prod.fst = (List.range 1024).map (fun k => Ev.new now k) ∧ ∀ now' p, step s (.new now' p) = none := by
  obtain ⟨h, s, H, h1, h2, -⟩ := fill w now 1024 (Nat.le_refl _)
  refine ⟨h, s, H, h1, fun now' p => ?_⟩
  have := C34_new_defined_partial H now' p
  cases hs : step s (.new now' p) with
  | none => rfl
  | some x =>
    rw [hs] at this
    obtain ⟨j, hj, hp | ⟨q, t, hp, -⟩⟩ := this.1 rfl
    · rw [h2 j hj] at hp; cases hp
    · rw [h2 j hj] at hp; cases hp

private theorem empty (w t0 t1 : Int) (hw : w > 0) : ∀ n, n ≤ 1024 → ∃ h s, Hist w h s ∧
    h.map Prod.fst = (List.range 1024).map (fun k => Ev.new t0 k) ++ (List.range n).map (fun k : Nat => Ev.stop k t1) ∧
    (∀ k : Nat, k < n → place w h k = .closed k t1) ∧ ∀ k : Nat, n ≤ k → k < 1024 → place w h k = .live k := by
  intro n
  induction n with
  | zero =>
    intro _
    obtain ⟨h, s, H, h1, h2, -⟩ := fill w t0 1024 (Nat.le_refl _)
    exact ⟨h, s, H, by rw [h1]; simp only [List.range_zero, List.map_nil, List.append_nil],
      (by intro k hk; omega), fun k _ hk => h2 k hk⟩
  | succ n ih =>
    intro hn
    obtain ⟨h, s, H, h1, h2, h3⟩ := ih (by omega)
    obtain ⟨s1, e1, -⟩ := stop_body (inv_hist H) n t1
    refine ⟨_, s1, .snoc H e1, ?_, ?_, ?_⟩
    · rw [List.map_append, h1, List.range_succ (n := n), List.map_append, List.append_assoc]; rfl
    · intro k hk
      rw [place_snoc]
      simp only [after]
      by_cases hkj : (n : Int) = k
      · rw [if_pos hkj, h3 k (by omega) (by omega)]
        simp only [if_pos hw]
      · rw [if_neg hkj]; exact h2 k (by omega)
    · intro k hk hk'
      rw [place_snoc]
      simp only [after]
      rw [if_neg (by omega)]
      exact h3 k (by omega) hk'

/-- C34 is violated also when nobody is connected: after 1024 sessions were opened and closed, a new one within the
waiting time is written outside of the arrays. -/
theorem C34_violated_waiting (w t0 t1 : Int) (hw : w > 0) : ∃ h s, Hist w h s ∧
    h.map Prod.fst = (List.range 1024).map (fun k => Ev.new t0 k) ++ (List.range 1024).map (fun k : Nat => Ev.stop k t1) ∧
    (∀ k, step s (.get k) = some (s, .ptr none)) ∧ ∀ now p, now - t1 ≤ w → step s (.new now p) = none := by
  obtain ⟨h, s, H, h1, h2, -⟩ := empty w t0 t1 hw 1024 (Nat.le_refl _)
  refine ⟨h, s, H, h1, fun k => ?_, fun now p hn => ?_⟩
  · rw [C34_lookup_partial H]
    by_cases hk : k < 0 ∨ k ≥ 1024
    · rw [(inv_hist H).out k hk]; rfl
    · have := h2 k.toNat (by omega)
      rw [Int.toNat_of_nonneg (by omega)] at this
      rw [this]; rfl
  · have := C34_new_defined_partial H now p
    cases hs : step s (.new now p) with
    | none => rfl
    | some x =>
      rw [hs] at this
      obtain ⟨j, hj, hp | ⟨q, t, hp, hx⟩⟩ := this.1 rfl
      · rw [h2 j hj] at hp; cases hp
      · rw [h2 j hj] at hp; cases hp; omega

/-! ### A history the theorems apply to -/

def run : Tab → List Ev → Option (Tab × List (Ev × Out))
  | s, [] => some (s, [])
  | s, e :: es => do
    let (s, o) ← step s e
    let (s, h) ← run s es
    return (s, (e, o) :: h)

private theorem hist_run {w : Int} : ∀ (es : List Ev) {h0 h : List (Ev × Out)} {s0 s : Tab}, Hist w h0 s0 →
    run s0 es = some (s, h) → Hist w (h0 ++ h) s := by
  intro es
  induction es with
  | nil => intro h0 h s0 s H hr; cases hr; simpa using H
  | cons e es ih =>
    intro h0 h s0 s H hr
    simp only [run, bind, Option.bind_eq_some_iff] at hr
    obtain ⟨⟨s1, o⟩, h1, ⟨s2, h'⟩, h2, h3⟩ := hr
    cases h3
    have := ih (Hist.snoc H h1) h2
    rwa [List.append_assoc] at this

/-- Sessions 7 and 8; 7 is closed at 10; within 60 seconds its number 0 is not given away, after that it is. -/
def sampleEvs : List Ev :=
  [.new 1 7, .new 2 8, .stop 0 10, .get 0, .new 70 9, .next 2, .uses, .new 71 5, .get 0, .first, .next 5]

def sampleHist : List (Ev × Out) := sampleEvs.zip
  [.num 0 [], .num 1 [], .num 0 [(7, 0)], .ptr none, .num 2 [], .num 1 [], .num 2 [], .num 0 [(7, 1)], .ptr (some 5),
    .num 0 [], .num 0 []]

theorem sample_runs : (run (create 60) sampleEvs).map Prod.snd = some sampleHist := by decide +kernel

example : ∃ s, Hist 60 sampleHist s ∧ place 60 sampleHist 0 = .live 5 ∧ place 60 sampleHist 1 = .live 8 ∧
    place 60 sampleHist 2 = .live 9 ∧ place 60 sampleHist 3 = .never := by
  obtain ⟨⟨s, h⟩, hr, hh⟩ := Option.map_eq_some_iff.1 sample_runs
  cases hh
  exact ⟨s, hist_run sampleEvs .nil hr, by decide +kernel, by decide +kernel, by decide +kernel, by decide +kernel⟩

/-- Before number 0 was given away again it was closed at 10. -/
example : place 60 (sampleHist.take 7) 0 = .closed 7 10 := by decide +kernel

end Sis.Sess
