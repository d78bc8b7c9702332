import Verif.Dyn.Dynamic
/-
Lemmas about the layout of a table.
-/
namespace Sis.Dyn
open Sis

theorem sameN_iff {a b : Bytes} : sameN a b = true ↔ a.map lower = b.map lower := by simp [sameN]

theorem sameN_refl (a : Bytes) : sameN a a = true := by simp [sameN]

theorem getN_congr {α : Type} (l : List (Bytes × α)) {a b : Bytes} (h : sameN a b = true) : getN l a = getN l b := by
  unfold getN
  congr 2
  funext e
  rw [sameN_iff] at h
  simp [sameN, h]

theorem getN_some {α : Type} {l : List (Bytes × α)} {k : Bytes} {v : α} (h : getN l k = some v) :
    ∃ (i : Nat) (e : Bytes × α), l[i]? = some e ∧ e.2 = v ∧ sameN k e.1 = true := by
  unfold getN at h
  obtain ⟨e, he, rfl⟩ := Option.map_eq_some_iff.1 h
  obtain ⟨i, hi⟩ := List.mem_iff_getElem?.1 (List.mem_of_find?_eq_some he)
  exact ⟨i, e, hi, rfl, by simpa using List.find?_some he⟩

theorem getN_none {α : Type} {l : List (Bytes × α)} {k : Bytes} : getN l k = none ↔ ∀ e ∈ l, sameN k e.1 = false := by
  unfold getN
  rw [Option.map_eq_none_iff, List.find?_eq_none]
  simp

theorem setN_spec {α : Type} (l : List (Bytes × α)) (k : Bytes) (v : α) :
    (getN l k = none ∧ setN l k v = (l ++ [(k, v)], none)) ∨
    ∃ i e, l[i]? = some e ∧ sameN k e.1 = true ∧ getN l k = some e.2 ∧ setN l k v = (l.set i (e.1, v), some e.2) := by
  induction l with
  | nil => exact .inl ⟨rfl, rfl⟩
  | cons e l ih =>
    by_cases hs : sameN k e.1 = true
    · refine .inr ⟨0, e, rfl, hs, ?_, ?_⟩
      · simp [getN, hs]
      · simp [setN, hs]
    · have hs' : sameN k e.1 = false := by simpa using hs
      have hg : getN (e :: l) k = getN l k := by simp [getN, hs']
      rcases ih with ⟨h1, h2⟩ | ⟨i, e', h1, h2, h3, h4⟩
      · exact .inl ⟨by rw [hg, h1], by simp [setN, hs', h2]⟩
      · exact .inr ⟨i + 1, e', by simpa using h1, h2, by rw [hg, h3], by simp [setN, hs', h4]⟩

/-- What holds of the fields of a table of `off` bytes. -/
structure Lay (heap : List (Option Field)) (fields : List (Bytes × Nat)) (off : Nat) : Prop where
  live : ∀ (i : Nat) e, fields[i]? = some e → ∃ f, heap[e.2]?.join = some f ∧ f.offset + f.len * f.count ≤ off ∧ 1 ≤ f.len ∧
    1 ≤ f.count ∧ sameN f.fname (e.1.take 31) = true
  diff : ∀ (i j : Nat) e e', fields[i]? = some e → fields[j]? = some e' → i ≠ j → sameN e.1 e'.1 = false ∧ e.2 ≠ e'.2
  apart : ∀ (i j : Nat) e e' f f', fields[i]? = some e → fields[j]? = some e' → i ≠ j → heap[e.2]?.join = some f →
    heap[e'.2]?.join = some f' → f.offset + f.len * f.count ≤ f'.offset ∨ f'.offset + f'.len * f'.count ≤ f.offset

theorem join_lt {heap : List (Option Field)} {a : Nat} {f : Field} (h : heap[a]?.join = some f) : a < heap.length := by
  rcases Nat.lt_or_ge a heap.length with h' | h'
  · exact h'
  · rw [List.getElem?_eq_none h'] at h; cases h

theorem join_append {heap : List (Option Field)} {a : Nat} {f g : Field} (h : heap[a]?.join = some f) :
    (heap ++ [some g])[a]?.join = some f := by
  rw [List.getElem?_append_left (join_lt h)]; exact h

theorem lay_nil : Lay [] [] 0 :=
  ⟨fun i e h => by simp at h, fun i j e e' h => by simp at h, fun i j e e' f f' h => by simp at h⟩

theorem lay_append {heap fields off} (L : Lay heap fields off) (k : Bytes) (f : Field) (hk : getN fields k = none)
    (ho : f.offset = off) (hl : 1 ≤ f.len) (hc : 1 ≤ f.count) (hn : f.fname = k.take 31) :
    Lay (heap ++ [some f]) (fields ++ [(k, heap.length)]) (off + f.len * f.count) := by
  have hnew : (heap ++ [some f])[heap.length]?.join = some f := by simp
  have hcase : ∀ (i : Nat) e, (fields ++ [(k, heap.length)])[i]? = some e →
      (i < fields.length ∧ fields[i]? = some e) ∨ (i = fields.length ∧ e = (k, heap.length)) := by
    intro i e h
    rcases Nat.lt_or_ge i fields.length with h' | h'
    · rw [List.getElem?_append_left h'] at h; exact .inl ⟨h', h⟩
    · rw [List.getElem?_append_right h'] at h
      have hi : i = fields.length := by
        rcases Nat.eq_or_lt_of_le h' with h | h''
        · exact h.symm
        · rw [List.getElem?_eq_none (by simp; omega)] at h; cases h
      subst hi
      simp at h
      exact .inr ⟨rfl, h.symm⟩
  rw [getN_none] at hk
  have hold : ∀ (i : Nat) e, fields[i]? = some e → ∃ g, heap[e.2]?.join = some g ∧ (heap ++ [some f])[e.2]?.join = some g ∧
      e.2 < heap.length ∧ g.offset + g.len * g.count ≤ off := by
    intro i e h
    obtain ⟨g, hg, h1, -⟩ := L.live i e h
    exact ⟨g, hg, join_append hg, join_lt hg, h1⟩
  refine ⟨?_, ?_, ?_⟩
  · intro i e h
    rcases hcase i e h with ⟨_, h⟩ | ⟨_, rfl⟩
    · obtain ⟨g, hg, h1, h2, h3, h4⟩ := L.live i e h
      exact ⟨g, join_append hg, by omega, h2, h3, h4⟩
    · exact ⟨f, hnew, by omega, hl, hc, by rw [hn]; exact sameN_refl _⟩
  · intro i j e e' h h' hij
    rcases hcase i e h with ⟨_, h⟩ | ⟨hi, rfl⟩ <;> rcases hcase j e' h' with ⟨_, h'⟩ | ⟨hj, rfl⟩
    · exact L.diff i j e e' h h' hij
    · obtain ⟨g, _, _, hlt, _⟩ := hold i e h
      have := hk e (List.mem_of_getElem? h)
      refine ⟨?_, by dsimp; omega⟩
      simp only [sameN, beq_eq_false_iff_ne] at this ⊢
      exact fun h => this h.symm
    · obtain ⟨g, _, _, hlt, _⟩ := hold j e' h'
      exact ⟨hk e' (List.mem_of_getElem? h'), by dsimp; omega⟩
    · omega
  · intro i j e e' g g' h h' hij hg hg'
    rcases hcase i e h with ⟨_, h⟩ | ⟨hi, rfl⟩ <;> rcases hcase j e' h' with ⟨_, h'⟩ | ⟨hj, rfl⟩
    · obtain ⟨g1, h1, h2, _, _⟩ := hold i e h
      obtain ⟨g2, h3, h4, _, _⟩ := hold j e' h'
      rw [h2] at hg; rw [h4] at hg'
      cases hg; cases hg'
      exact L.apart i j e e' g g' h h' hij h1 h3
    · obtain ⟨g1, h1, h2, _, h5⟩ := hold i e h
      rw [h2] at hg; cases hg
      rw [hnew] at hg'; cases hg'
      left; omega
    · obtain ⟨g1, h1, h2, _, h5⟩ := hold j e' h'
      rw [h2] at hg'; cases hg'
      rw [hnew] at hg; cases hg
      right; omega
    · omega

theorem lay_set {heap fields off} (L : Lay heap fields off) (k : Bytes) (f : Field) (n : Nat) (e₀ : Bytes × Nat)
    (hn : fields[n]? = some e₀) (hk : sameN k e₀.1 = true)
    (ho : f.offset = off) (hl : 1 ≤ f.len) (hc : 1 ≤ f.count) (hf : f.fname = k.take 31) :
    Lay ((heap ++ [some f]).set e₀.2 none) (fields.set n (e₀.1, heap.length)) (off + f.len * f.count) := by
  obtain ⟨f₀, hf₀, -⟩ := L.live n e₀ hn
  have hlt₀ := join_lt hf₀
  have hnlt : n < fields.length := (List.getElem?_eq_some_iff.1 hn).1
  have hnew : ((heap ++ [some f]).set e₀.2 none)[heap.length]?.join = some f := by
    rw [List.getElem?_set_ne (by omega)]; simp
  have hcase : ∀ (i : Nat) e, (fields.set n (e₀.1, heap.length))[i]? = some e →
      (i ≠ n ∧ fields[i]? = some e) ∨ (i = n ∧ e = (e₀.1, heap.length)) := by
    intro i e h
    rw [List.getElem?_set] at h
    split at h
    · rename_i hin
      cases h
      exact .inr ⟨hin.symm, rfl⟩
    · rename_i hin
      exact .inl ⟨fun h => hin h.symm, h⟩
  have hold : ∀ (i : Nat) e, i ≠ n → fields[i]? = some e → ∃ g, heap[e.2]?.join = some g ∧
      ((heap ++ [some f]).set e₀.2 none)[e.2]?.join = some g ∧ e.2 < heap.length ∧ g.offset + g.len * g.count ≤ off := by
    intro i e hi h
    obtain ⟨g, hg, h1, -⟩ := L.live i e h
    have := (L.diff i n e e₀ h hn hi).2
    refine ⟨g, hg, ?_, join_lt hg, h1⟩
    rw [List.getElem?_set_ne (fun h => this h.symm)]
    exact join_append hg
  refine ⟨?_, ?_, ?_⟩
  · intro i e h
    rcases hcase i e h with ⟨hi, h⟩ | ⟨_, rfl⟩
    · obtain ⟨g, hg, h1, h2, h3, h4⟩ := L.live i e h
      obtain ⟨g', a, b, -⟩ := hold i e hi h
      rw [a] at hg; cases hg
      exact ⟨g, b, by omega, h2, h3, h4⟩
    · refine ⟨f, hnew, by omega, hl, hc, ?_⟩
      rw [hf, sameN_iff, List.map_take, List.map_take, sameN_iff.1 hk]
  · intro i j e e' h h' hij
    rcases hcase i e h with ⟨hi, h⟩ | ⟨hi, rfl⟩ <;> rcases hcase j e' h' with ⟨hj, h'⟩ | ⟨hj, rfl⟩
    · exact L.diff i j e e' h h' hij
    · obtain ⟨g, _, _, hlt, _⟩ := hold i e hi h
      exact ⟨(L.diff i n e e₀ h hn hi).1, by dsimp; omega⟩
    · obtain ⟨g, _, _, hlt, _⟩ := hold j e' hj h'
      exact ⟨(L.diff n j e₀ e' hn h' (fun h => hj h.symm)).1, by dsimp; omega⟩
    · omega
  · intro i j e e' g g' h h' hij hg hg'
    rcases hcase i e h with ⟨hi, h⟩ | ⟨hi, rfl⟩ <;> rcases hcase j e' h' with ⟨hj, h'⟩ | ⟨hj, rfl⟩
    · obtain ⟨g1, h1, h2, _, _⟩ := hold i e hi h
      obtain ⟨g2, h3, h4, _, _⟩ := hold j e' hj h'
      rw [h2] at hg; rw [h4] at hg'
      cases hg; cases hg'
      exact L.apart i j e e' g g' h h' hij h1 h3
    · obtain ⟨g1, h1, h2, _, h5⟩ := hold i e hi h
      rw [h2] at hg; cases hg
      rw [hnew] at hg'; cases hg'
      left; omega
    · obtain ⟨g1, h1, h2, _, h5⟩ := hold j e' hj h'
      rw [h2] at hg'; cases hg'
      rw [hnew] at hg; cases hg
      right; omega
    · omega

/-- A definition that becomes a field. -/
def good (d : Def) : Bool := d.name.isSome && d.style.isSome && decide (1 ≤ d.len) && decide (d.len ≤ 65535) && decide (1 ≤ d.count) && decide (d.count ≤ 65535)

/-- What a definition adds to the size of a record. -/
def width (d : Def) : Nat := if good d then d.len.toNat * d.count.toNat else 0

theorem good_iff {d : Def} : good d = true ↔ ∃ k st, d.name = some k ∧ d.style = some st ∧ 1 ≤ d.len ∧ d.len ≤ 65535 ∧ 1 ≤ d.count ∧ d.count ≤ 65535 := by
  simp only [good, Bool.and_eq_true, decide_eq_true_eq, Option.isSome_iff_exists]
  constructor
  · rintro ⟨⟨⟨⟨⟨⟨k, h1⟩, ⟨st, h2⟩⟩, h3⟩, h4⟩, h5⟩, h6⟩
    exact ⟨k, st, h1, h2, h3, h4, h5, h6⟩
  · rintro ⟨k, st, h1, h2, h3, h4, h5, h6⟩
    exact ⟨⟨⟨⟨⟨⟨k, h1⟩, ⟨st, h2⟩⟩, h3⟩, h4⟩, h5⟩, h6⟩

theorem addDef_bad {db : Db} {off : Nat} {d : Def} (h : good d = false) : addDef db off d = some (db, off) := by
  unfold addDef
  split
  · rename_i k st h1 h2
    split
    · rfl
    · rename_i h3
      split
      · rfl
      · rename_i h4
        exfalso
        have : good d = true := good_iff.2 ⟨k, st, h1, h2, by omega, by omega, by omega, by omega⟩
        rw [this] at h; cases h
  · rfl

/-- The field a definition becomes. -/
def mk (d : Def) (off : Nat) : Field := ⟨(d.name.getD []).take 31, d.style.getD .int, d.len.toNat, d.count.toNat, off % 2 ^ 16,
  dotOf (d.style.getD .int) d.dot, d.main, d.solely⟩

theorem addDef_good {db : Db} {off : Nat} {d : Def} {k : Bytes} {st : St} (h : good d = true) (hk : d.name = some k) (hst : d.style = some st)
    (hs : off + width d < 2 ^ 31) :
    addDef db off d = some (⟨match (setN db.fields k db.heap.length).2 with
          | some old => (db.heap ++ [some (mk d off)]).set old none
          | none => db.heap ++ [some (mk d off)], (setN db.fields k db.heap.length).1, db.size,
          if db.time.isNone ∧ isTime st = true then some db.heap.length else db.time,
          if d.main then some db.heap.length else db.mindex⟩, off + width d) := by
  obtain ⟨k', st', h1, h2, h3, h4, h5, h6⟩ := good_iff.1 h
  rw [hk] at h1; rw [hst] at h2; cases h1; cases h2
  have hw : width d = d.len.toNat * d.count.toNat := by simp [width, h]
  unfold addDef
  rw [hk, hst]
  dsimp only
  rw [if_neg (by omega), if_neg (by omega), if_pos (by rw [← hw]; exact hs), hw]
  simp only [mk, hk, hst, Option.getD_some]
  rfl

theorem addDef_over {db : Db} {off : Nat} {d : Def} (h : good d = true) (hs : ¬ off + width d < 2 ^ 31) : addDef db off d = none := by
  obtain ⟨k, st, h1, h2, h3, h4, h5, h6⟩ := good_iff.1 h
  have hw : width d = d.len.toNat * d.count.toNat := by simp [width, h]
  unfold addDef
  rw [h1, h2]
  dsimp only
  rw [if_neg (by omega), if_neg (by omega), if_neg (by rw [← hw]; exact hs)]

theorem width_bad {d : Def} (h : good d = false) : width d = 0 := by simp [width, h]

theorem width_pos {d : Def} (h : good d = true) : 1 ≤ width d := by
  obtain ⟨k, st, h1, h2, h3, h4, h5, h6⟩ := good_iff.1 h
  simp only [width, h, if_true]
  exact Nat.mul_pos (by omega) (by omega)

theorem addDef_off {db db' : Db} {off off' : Nat} {d : Def} (h : addDef db off d = some (db', off')) : off' = off + width d ∧ (good d = true → off' < 2 ^ 31) := by
  cases hg : good d
  · rw [addDef_bad hg] at h; cases h
    exact ⟨by rw [width_bad hg]; rfl, by simp⟩
  · obtain ⟨k, st, h1, h2, _⟩ := good_iff.1 hg
    by_cases hs : off + width d < 2 ^ 31
    · rw [addDef_good hg h1 h2 hs] at h
      cases h
      exact ⟨rfl, fun _ => hs⟩
    · rw [addDef_over hg hs] at h; cases h

def widths (ds : List Def) : Nat := (ds.map width).sum

theorem addDefs_off {ds : List Def} : ∀ {db db' : Db} {off off' : Nat}, addDefs db off ds = some (db', off') → off' = off + widths ds := by
  induction ds with
  | nil => intro db db' off off' h; cases h; rfl
  | cons d ds ih =>
    intro db db' off off' h
    simp only [addDefs, Option.bind_eq_some_iff] at h
    obtain ⟨⟨db1, off1⟩, h1, h2⟩ := h
    have := ih h2
    rw [this, (addDef_off h1).1]
    simp [widths]; omega

theorem addDefs_some {ds : List Def} : ∀ {db : Db} {off : Nat}, off + widths ds < 2 ^ 31 → ∃ r, addDefs db off ds = some r := by
  induction ds with
  | nil => intro db off _; exact ⟨_, rfl⟩
  | cons d ds ih =>
    intro db off h
    have hw : widths (d :: ds) = width d + widths ds := by simp [widths]
    rw [hw] at h
    simp only [addDefs]
    cases hg : good d
    · rw [addDef_bad hg, Option.bind_some]
      exact ih (by omega)
    · obtain ⟨k, st, h1, h2, _⟩ := good_iff.1 hg
      rw [addDef_good hg h1 h2 (by omega), Option.bind_some]
      exact ih (by omega)

theorem addDefs_none {ds : List Def} : ∀ {db : Db} {off : Nat}, off < 2 ^ 31 → 2 ^ 31 ≤ off + widths ds → addDefs db off ds = none := by
  intro db off h0 h
  cases hr : addDefs db off ds with
  | none => rfl
  | some r =>
    exfalso
    have key : ∀ (ds : List Def) (db db' : Db) (off off' : Nat), off < 2 ^ 31 → addDefs db off ds = some (db', off') → off' < 2 ^ 31 := by
      intro ds
      induction ds with
      | nil => intro db db' off off' h h'; cases h'; exact h
      | cons d ds ih =>
        intro db db' off off' h h'
        simp only [addDefs, Option.bind_eq_some_iff] at h'
        obtain ⟨⟨db1, off1⟩, h1, h2⟩ := h'
        refine ih db1 db' off1 off' ?_ h2
        have := addDef_off h1
        cases hg : good d
        · rw [this.1, width_bad hg]; exact h
        · exact this.2 hg
    have h1 := key ds db r.1 off r.2 h0 hr
    have h2 := addDefs_off hr
    omega

theorem addDef_lay {db db' : Db} {off off' : Nat} {d : Def} (L : Lay db.heap db.fields off) (h : addDef db off d = some (db', off'))
    (hs : off' ≤ 65536) : Lay db'.heap db'.fields off' := by
  cases hg : good d
  · rw [addDef_bad hg] at h; cases h; exact L
  · obtain ⟨k, st, h1, h2, h3, h4, h5, h6⟩ := good_iff.1 hg
    have ho := addDef_off h
    have hp := width_pos hg
    have hlt := ho.2 hg
    rw [addDef_good hg h1 h2 (by omega)] at h
    cases h
    have hoff : (mk d off).offset = off := by simp only [mk]; omega
    have hw : (mk d off).len * (mk d off).count = width d := by simp [mk, width, hg]
    rw [← hw]
    have hl : 1 ≤ (mk d off).len := by simp only [mk]; omega
    have hc : 1 ≤ (mk d off).count := by simp only [mk]; omega
    have hf : (mk d off).fname = k.take 31 := by simp [mk, h1]
    rcases setN_spec db.fields k db.heap.length with ⟨hn, he⟩ | ⟨i, e, hi, hk, _, he⟩
    · rw [he]; exact lay_append L k _ hn hoff hl hc hf
    · rw [he]; exact lay_set L k _ i e hi hk hoff hl hc hf

theorem addDefs_lay {ds : List Def} : ∀ {db db' : Db} {off off' : Nat}, Lay db.heap db.fields off → addDefs db off ds = some (db', off') →
    off' ≤ 65536 → Lay db'.heap db'.fields off' := by
  induction ds with
  | nil => intro db db' off off' L h _; cases h; exact L
  | cons d ds ih =>
    intro db db' off off' L h hs
    simp only [addDefs, Option.bind_eq_some_iff] at h
    obtain ⟨⟨db1, off1⟩, h1, h2⟩ := h
    have := addDefs_off h2
    exact ih (addDef_lay L h1 (by omega)) h2 hs

theorem create_some {ds : List Def} {db : Db} (h : create ds = some (some db)) :
    ∃ db₀, addDefs ⟨[], [], 0, none, none⟩ 0 ds = some (db₀, widths ds) ∧ 1 ≤ widths ds ∧
      db = ⟨db₀.heap, db₀.fields, widths ds, db₀.time, if db₀.time.isSome then db₀.time else db₀.mindex⟩ := by
  unfold create at h
  obtain ⟨⟨db₀, off⟩, h1, h2⟩ := Option.map_eq_some_iff.1 h
  have ho := addDefs_off h1
  rw [Nat.zero_add] at ho
  subst ho
  dsimp only at h2
  split at h2
  · cases h2
  · cases h2
    exact ⟨db₀, h1, by omega, rfl⟩

theorem create_lay {ds : List Def} {db : Db} (h : create ds = some (some db)) (hs : db.size ≤ 65536) : Lay db.heap db.fields db.size := by
  obtain ⟨db₀, h1, h2, rfl⟩ := create_some h
  have h3 := addDefs_lay (db := ⟨[], [], 0, none, none⟩) lay_nil h1 hs
  exact h3

theorem addField_lay {db db' : Db} {k : Bytes} {st : St} {len count dot : Nat} (L : Lay db.heap db.fields db.size) (hl : 1 ≤ len) (hc : 1 ≤ count)
    (h : addField db k st len count dot = some db') (hs : db.size + len * count ≤ 65536) : Lay db'.heap db'.fields db'.size := by
  unfold addField at h
  split at h
  · cases h; exact L
  · rename_i hn
    split at h
    · cases h
      have hp : 1 ≤ len * count := Nat.mul_pos hl hc
      have h1 : db.size % 2 ^ 16 = db.size := by omega
      have h2 : (db.size + count * len) % 2 ^ 32 = db.size + len * count := by rw [Nat.mul_comm count]; omega
      dsimp only
      rw [h2]
      exact lay_append L k ⟨k.take 31, st, len, count, db.size % 2 ^ 16, dot % 2 ^ 8, false, false⟩ hn h1 hl hc rfl
    · cases h

theorem fieldAt_some {db : Db} {i : Nat} {f : Field} : fieldAt db i = some f ↔ ∃ e, db.fields[i]? = some e ∧ unit db e.2 = some f := by
  simp only [fieldAt, Option.bind_eq_some_iff]

theorem field_some {db : Db} {k : Bytes} {f : Field} (h : field db k = some f) :
    ∃ (i : Nat) (e : Bytes × Nat), db.fields[i]? = some e ∧ unit db e.2 = some f ∧ sameN k e.1 = true := by
  simp only [field, Option.bind_eq_some_iff] at h
  obtain ⟨a, h1, h2⟩ := h
  obtain ⟨i, e, h3, h4, h5⟩ := getN_some h1
  exact ⟨i, e, h3, by rw [h4]; exact h2, h5⟩

theorem getN_at {heap fields off} (L : Lay heap fields off) {i : Nat} {e : Bytes × Nat} (h : fields[i]? = some e) {k : Bytes}
    (hk : sameN k e.1 = true) : getN fields k = some e.2 := by
  cases hg : getN fields k with
  | none =>
    rw [getN_none] at hg
    rw [hg e (List.mem_of_getElem? h)] at hk; cases hk
  | some a =>
    obtain ⟨j, e', h1, h2, h3⟩ := getN_some hg
    by_cases hij : i = j
    · subst hij
      rw [h] at h1; cases h1
      rw [h2]
    · exfalso
      have := (L.diff i j e e' h h1 hij).1
      rw [sameN_iff] at hk h3
      rw [← Bool.not_eq_true, sameN_iff] at this
      exact this (hk.symm.trans h3)

end Sis.Dyn
