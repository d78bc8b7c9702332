import Verif.Rec.ReadLemmas
import Mathlib.Data.List.Perm.Subperm
/-
Lemmas on whole records made of texts.
-/
namespace Sis.Rec
open Sis Sis.Num
open Sis.Json (Node Ty Ok OkElems OkMembers okNum okStr okKey)
open Sis.Dyn (Db Field St elem put puts slot num Made over covers)
open Sis.Sdb (every numNode strNode)

theorem fieldWrites_cells {fl : Fl} {f : Field} {row : Node} {wr : Nat → Field → Nat → List Dyn.W} : ∀ (todo i k : Nat),
    (∀ e, e < todo → cellWrites fl f (i + e) (llutoa (k + e) 32) row = some (wr (k + e) f (i + e))) →
    fieldWrites fl f row todo i k = some ((fieldCells wr f todo i k).flatMap Cell.ws) := by
  intro todo
  induction todo with
  | zero => intro i k _; rfl
  | succ n ih =>
    intro i k h
    have h0 := h 0 (by omega)
    rw [Nat.add_zero, Nat.add_zero] at h0
    rw [fieldWrites, h0, ih (i + 1) (k + 1) fun e he => by
      have := h (e + 1) (by omega)
      rwa [show i + (e + 1) = i + 1 + e by omega, show k + (e + 1) = k + 1 + e by omega] at this]
    simp [fieldCells]

theorem rowWrites_cells {fl : Fl} {row : Node} {wr : Nat → Field → Nat → List Dyn.W} : ∀ (fs : List Field) (k : Nat),
    (∀ j f e, fs[j]? = some f → e < f.count → cellWrites fl f e (llutoa (k + before fs j + e) 32) row = some (wr (k + before fs j + e) f e)) →
    rowWrites fl row fs k = some ((rowCells wr fs k).flatMap Cell.ws) := by
  intro fs
  induction fs with
  | nil => intro k _; rfl
  | cons f fs ih =>
    intro k h
    rw [rowWrites, fieldWrites_cells f.count 0 k fun e he => by
      have := h 0 f e rfl he
      simpa [before] using this, ih (k + f.count) fun j g e hj he => by
        have := h (j + 1) g e hj he
        simpa [before, Nat.add_assoc] using this]
    simp [rowCells]

/-- The name that is looked up for an element of a field. -/
def nameOf (f : Field) (i : Nat) : Bytes := if f.count > 1 then numbered f.fname i else f.fname

theorem namedWrites_cells {fl : Fl} {f : Field} {n : Node} {wr : Nat → Field → Nat → List Dyn.W} : ∀ (todo i k : Nat),
    (∀ e, e < todo → cellWrites fl f (i + e) (nameOf f (i + e)) n = some (wr (k + e) f (i + e))) →
    namedWrites fl f n todo i = some ((fieldCells wr f todo i k).flatMap Cell.ws) := by
  intro todo
  induction todo with
  | zero => intro i k _; rfl
  | succ m ih =>
    intro i k h
    have h0 := h 0 (by omega)
    rw [Nat.add_zero, Nat.add_zero, nameOf] at h0
    rw [namedWrites, h0, ih (i + 1) (k + 1) fun e he => by
      have := h (e + 1) (by omega)
      rwa [show i + (e + 1) = i + 1 + e by omega, show k + (e + 1) = k + 1 + e by omega] at this]
    simp [fieldCells]

theorem objWrites_cells {fl : Fl} {n : Node} {wr : Nat → Field → Nat → List Dyn.W} : ∀ (fs : List Field) (k : Nat),
    (∀ j f e, fs[j]? = some f → e < f.count → cellWrites fl f e (nameOf f e) n = some (wr (k + before fs j + e) f e)) →
    objWrites fl n fs = some ((rowCells wr fs k).flatMap Cell.ws) := by
  intro fs
  induction fs with
  | nil => intro k _; rfl
  | cons f fs ih =>
    intro k h
    rw [objWrites, namedWrites_cells f.count 0 k fun e he => by
      have := h 0 f e rfl he
      simpa [before] using this, ih (k + f.count) fun j g e hj he => by
        have := h (j + 1) g e hj he
        simpa [before, Nat.add_assoc] using this]
    simp [rowCells]

/-- What the writes of a record leave, when its elements are apart and each has its own writes. -/
theorem cells_leave {fs : List Field} {wr : Nat → Field → Nat → List Dyn.W} {k size : Nat} {tg : Nat → Field → Nat → Bytes}
    (hap : fs.Pairwise FApart) (hin : ∀ f ∈ fs, f.offset + f.len * f.count ≤ size)
    (hl : ∀ j f e, fs[j]? = some f → e < f.count → (tg j f e).length = f.len ∧ Leaves (wr (k + before fs j + e) f e) (f.offset + e * f.len) (tg j f e)) :
    (∀ w ∈ (rowCells wr fs k).flatMap Cell.ws, w.1 + w.2.length ≤ size) ∧
    ∀ j f e, fs[j]? = some f → e < f.count → ∀ b, b < f.len →
      (over ((rowCells wr fs k).flatMap Cell.ws) (f.offset + e * f.len + b)).or (some 0) = (tg j f e)[b]? := by
  have hins : ∀ c ∈ rowCells wr fs k, c.Inside := by
    intro c hc w hw
    obtain ⟨j, f, e, hj, he, rfl⟩ := (rowCells_mem ..).1 hc
    obtain ⟨h1, h2⟩ := hl j f e hj he
    have := h2.1 w hw
    rw [h1] at this
    exact this
  refine ⟨?_, ?_⟩
  · intro w hw
    obtain ⟨c, hc, hwc⟩ := List.mem_flatMap.1 hw
    have h1 := hins c hc w hwc
    obtain ⟨j, f, e, hj, he, rfl⟩ := (rowCells_mem ..).1 hc
    have h2 := hin f (List.mem_of_getElem? hj)
    have h3 := cell_in he
    dsimp only at h1
    omega
  · intro j f e hj he b hb
    obtain ⟨h1, h2⟩ := hl j f e hj he
    have hc : (⟨f.offset + e * f.len, f.len, wr (k + before fs j + e) f e⟩ : Cell) ∈ rowCells wr fs k :=
      (rowCells_mem ..).2 ⟨j, f, e, hj, he, rfl⟩
    have h3 := cells_over hins (rowCells_apart wr fs hap k) hc hb
    dsimp only at h3
    rw [h3]
    exact h2.2 b (by omega)

theorem slot_of {size : Nat} {out : Bytes} {r : Nat} {f : Field} {e : Nat} {ws : List Dyn.W} {t : Bytes} (hin : f.offset + f.len * f.count ≤ size)
    (he : e < f.count) (ht : t.length = f.len) (hout : ∀ p, p < size → out[r * size + p]? = (over ws p).or (some 0))
    (hl : ∀ b, b < f.len → (over ws (f.offset + e * f.len + b)).or (some 0) = t[b]?) : slot size out r f e = t := by
  apply Dyn.slot_ext ht
  intro b hb
  have := cell_in he
  have h1 := hout (f.offset + e * f.len + b) (by omega)
  rw [hl b hb] at h1
  rw [← h1]
  congr 1
  omega

theorem rowsInto_spec {fl : Fl} {fs : List Field} {size : Nat} : ∀ (rows : List Node) (index : Nat) (out : Bytes),
    (∀ row ∈ rows, row.child.length = fs.length ∧ ∃ ws, rowWrites fl row fs 0 = some ws ∧ ∀ w ∈ ws, w.1 + w.2.length ≤ size) →
    (index + rows.length) * size ≤ out.length →
    ∃ out', rowsInto fl fs size rows index out = some out' ∧ out'.length = out.length ∧ (∀ p, p < index * size → out'[p]? = out[p]?) ∧
      ∀ j row ws, rows[j]? = some row → rowWrites fl row fs 0 = some ws → ∀ p, p < size →
        out'[(index + j) * size + p]? = (over ws p).or out[(index + j) * size + p]? := by
  intro rows
  induction rows with
  | nil => intro index out _ _; exact ⟨out, rfl, rfl, fun _ _ => rfl, nofun⟩
  | cons row rows ih =>
    intro index out h hb
    obtain ⟨hlen, ws, hws, hwin⟩ := h row (by simp)
    rw [List.length_cons] at hb
    have hb1 : index * size + size ≤ out.length := by
      have : (index + 1) * size ≤ (index + (rows.length + 1)) * size := Nat.mul_le_mul_right _ (by omega)
      rw [Nat.succ_mul] at this
      omega
    obtain ⟨o, ho⟩ := Dyn.puts_some (base := index * size) hwin hb1
    have hol := Dyn.puts_length ho
    obtain ⟨out', i1, i2, i3, i4⟩ := ih (index + 1) o (fun r hr => h r (by simp [hr])) (by
      rw [hol, show index + 1 + rows.length = index + (rows.length + 1) by omega]; exact hb)
    refine ⟨out', ?_, by rw [i2, hol], ?_, ?_⟩
    · rw [rowsInto, if_neg (by simpa using hlen), hws]
      simp only [Option.bind_eq_bind, Option.bind_some, ho]
      exact i1
    · intro p hp
      rw [i3 p (by rw [Nat.succ_mul]; omega), Dyn.puts_out ho hwin p (.inl hp)]
    · intro j row' ws' hj hws' p hp
      cases j with
      | zero =>
        cases hj
        rw [hws] at hws'; cases hws'
        rw [Nat.add_zero, i3 _ (by rw [Nat.succ_mul]; omega), Dyn.puts_in ho]
      | succ j =>
        have := i4 j row' ws' hj hws' p hp
        rw [show index + 1 + j = index + (j + 1) by omega] at this
        rw [this, Dyn.puts_out ho hwin]
        right
        have : (index + 1) * size ≤ (index + (j + 1)) * size := Nat.mul_le_mul_right _ (by omega)
        rw [Nat.succ_mul] at this
        omega

/-! ### The fields of a table -/

theorem fields_apart {db : Db} {fs : List Field} (hm : Made db) (h : FieldsAre db fs) : fs.Pairwise FApart := by
  rw [List.pairwise_iff_getElem]
  intro i j hi hj hij
  have h1 := h i
  have h2 := h j
  rw [List.getElem?_eq_getElem hi] at h1
  rw [List.getElem?_eq_getElem hj] at h2
  exact (Dyn.C52_partial hm h1.symm h2.symm).2 (by omega)

theorem fields_few {db : Db} {fs : List Field} (hm : Made db) (h : FieldsAre db fs) : fs.length ≤ db.size := by
  have hin := (fieldsOf_are hm h).2
  have hap := fields_apart hm h
  have hnd : (fs.map Field.offset).Nodup := by
    rw [List.Nodup, List.pairwise_map]
    refine List.Pairwise.imp_of_mem ?_ hap
    intro a b ha hb hab heq
    have ha := hin a ha
    have hb := hin b hb
    have h1 : 1 ≤ a.len * a.count := Nat.mul_pos ha.2.1 ha.2.2.1
    have h2 : 1 ≤ b.len * b.count := Nat.mul_pos hb.2.1 hb.2.2.1
    unfold FApart at hab
    omega
  have hsub : (fs.map Field.offset) ⊆ List.range db.size := by
    intro x hx
    obtain ⟨f, hf, rfl⟩ := List.mem_map.1 hx
    have hf := hin f hf
    have h1 : 1 ≤ f.len * f.count := Nat.mul_pos hf.2.1 hf.2.2.1
    simp; omega
  have := (hnd.subperm hsub).length_le
  simpa using this

theorem made_size {db : Db} (hm : Made db) : 1 ≤ db.size ∧ db.size ≤ 65536 := by
  induction hm with
  | create h hs =>
    obtain ⟨db₀, -, h1, rfl⟩ := Dyn.create_some h
    exact ⟨h1, hs⟩
  | @add db db' name style len count dot _ _ _ hs h ih =>
    unfold Dyn.addField at h
    split at h
    · cases h; exact ih
    · dsimp only at h
      split at h
      · cases h
        rw [Nat.mul_comm] at hs
        have : (db.size + count * len) % 2 ^ 32 = db.size + count * len := Nat.mod_eq_of_lt (by omega)
        dsimp only
        rw [this]
        omega
      · cases h

theorem made_count {db : Db} {fs : List Field} (hm : Made db) (h : FieldsAre db fs) : ∀ f ∈ fs, f.count ≤ 65536 := by
  intro f hf
  obtain ⟨h1, h2, -⟩ := (fieldsOf_are hm h).2 f hf
  have := (made_size hm).2
  have : 1 * f.count ≤ f.len * f.count := Nat.mul_le_mul_right _ h2
  omega

theorem before_one {fs : List Field} (h : ∀ f ∈ fs, f.count = 1) : ∀ j, j ≤ fs.length → before fs j = j := by
  induction fs with
  | nil => intro j hj; simp at hj; subst hj; rfl
  | cons f fs ih =>
    intro j hj
    cases j with
    | zero => rfl
    | succ j =>
      have := ih (fun g hg => h g (by simp [hg])) j (by simpa using hj)
      simp only [before, List.take_succ_cons, List.map_cons, List.sum_cons, h f (by simp)] at this ⊢
      omega

/-! ### Records of arrays -/

theorem row_writes {fl : Fl} {fs : List Field} {size : Nat} {row : Node} {vs : List Val} (hap : fs.Pairwise FApart)
    (hin : ∀ f ∈ fs, f.offset + f.len * f.count ≤ size) (hc : ∀ f ∈ fs, f.count = 1 ∧ Texted f) (hrow : row.child = inNodes 0 vs)
    (hlen : vs.length = fs.length) (hsm : fs.length < 10 ^ 31) :
    row.child.length = fs.length ∧ ∃ ws, rowWrites fl row fs 0 = some ws ∧ (∀ w ∈ ws, w.1 + w.2.length ≤ size) ∧
      ∀ (j : Nat) (f : Field) (v : Val), fs[j]? = some f → vs[j]? = some v → ∀ b, b < f.len → (over ws (f.offset + 0 * f.len + b)).or (some 0) = (target fl f (some v))[b]? := by
  refine ⟨by rw [hrow, inNodes_length, hlen], ?_⟩
  have hcell : ∀ j f e, fs[j]? = some f → e < f.count → ∃ v, vs[j]? = some v ∧ ∃ ws, cellWrites fl f e (llutoa (0 + before fs j + e) 32) row = some ws ∧
      Leaves ws (f.offset + e * f.len) (target fl f (some v)) := by
    intro j f e hj he
    have hjl : j < fs.length := (List.getElem?_eq_some_iff.1 hj).1
    obtain ⟨h1, h2⟩ := hc f (List.mem_of_getElem? hj)
    have he0 : e = 0 := by omega
    subst he0
    rw [before_one (fun f hf => (hc f hf).1) j (by omega), Nat.zero_add, Nat.add_zero]
    refine ⟨vs[j]'(by omega), List.getElem?_eq_getElem _, ?_⟩
    apply cellWrites_val h2
    obtain ⟨ty, key, val, ch⟩ := row
    replace hrow : ch = inNodes 0 vs := hrow
    subst hrow
    rw [find_row (by omega) (List.getElem?_eq_getElem (show j < vs.length by omega))]
    simp [inNode_value]
  let wr : Nat → Field → Nat → List Dyn.W := fun k f e => (cellWrites fl f e (llutoa k 32) row).getD []
  have hwr : ∀ j f e, fs[j]? = some f → e < f.count →
      cellWrites fl f e (llutoa (0 + before fs j + e) 32) row = some (wr (0 + before fs j + e) f e) := by
    intro j f e hj he
    obtain ⟨v, hv, ws, h1, h2⟩ := hcell j f e hj he
    simp only [wr]
    rw [h1]; rfl
  have hleave := cells_leave (k := 0) (wr := wr) (tg := fun j f _ => target fl f vs[j]?) hap hin (by
    intro j f e hj he
    refine ⟨target_length .., ?_⟩
    obtain ⟨v, hv, ws, h1, h2⟩ := hcell j f e hj he
    have : wr (0 + before fs j + e) f e = ws := by simp only [wr]; rw [h1]; rfl
    rw [this, hv]
    exact h2)
  refine ⟨_, rowWrites_cells (wr := wr) fs 0 hwr, hleave.1, ?_⟩
  intro j f v hj hv b hb
  have := hleave.2 j f 0 hj (by have := (hc f (List.mem_of_getElem? hj)).1; omega) b hb
  rw [this, hv]

theorem replicate_get (n : Nat) (p : Nat) (h : p < n) : (List.replicate n (0 : UInt8))[p]? = some 0 := by
  rw [List.getElem?_replicate, if_pos h]

/-- Records of the documents of rows of values. -/
theorem rows_slots {fl : Fl} {db : Db} {fs : List Field} (hm : Made db) (hfs : FieldsAre db fs) (hc : ∀ f ∈ fs, f.count = 1 ∧ Texted f)
    {ns : List Node} {rows : List (List Val)} (hns : List.Forall₂ (fun n vs => n.child = inNodes 0 vs ∧ vs.length = fs.length) ns rows) :
    ∃ out, rowsInto fl fs db.size ns 0 (List.replicate (ns.length * db.size) 0) = some out ∧ out.length = rows.length * db.size ∧
      ∀ (r : Nat) (vs : List Val) (j : Nat) (f : Field) (v : Val), rows[r]? = some vs → fs[j]? = some f → vs[j]? = some v → slot db.size out r f 0 = target fl f (some v) := by
  have hin := (fieldsOf_are hm hfs).2
  have hap := fields_apart hm hfs
  have hfew := fields_few hm hfs
  have hsz := made_size hm
  have hrow : ∀ (n : Node) (vs : List Val), n.child = inNodes 0 vs ∧ vs.length = fs.length → _ := fun n vs h =>
    row_writes (fl := fl) hap (fun f hf => (hin f hf).1) hc h.1 h.2 (by omega)
  obtain ⟨out, h1, h2, -, h4⟩ := rowsInto_spec (fl := fl) (fs := fs) (size := db.size) ns 0 (List.replicate (ns.length * db.size) 0)
    (by
      intro n hn
      obtain ⟨i, hi⟩ := List.getElem?_of_mem hn
      obtain ⟨hil, hie⟩ := List.getElem?_eq_some_iff.1 hi
      have := (List.forall₂_iff_get.1 hns).2 i hil (by rw [← hns.length_eq]; exact hil)
      simp only [List.get_eq_getElem] at this
      rw [hie] at this
      obtain ⟨g1, ws, g2, g3, -⟩ := hrow n _ this
      exact ⟨g1, ws, g2, g3⟩)
    (by simp)
  refine ⟨out, h1, by rw [h2, List.length_replicate, hns.length_eq], ?_⟩
  intro r vs j f v hr hj hv
  obtain ⟨hrl, hre⟩ := List.getElem?_eq_some_iff.1 hr
  have hnl : r < ns.length := by rw [hns.length_eq]; exact hrl
  have hpair := (List.forall₂_iff_get.1 hns).2 r hnl hrl
  simp only [List.get_eq_getElem] at hpair
  rw [hre] at hpair
  obtain ⟨g1, ws, g2, g3, g4⟩ := hrow _ _ hpair
  have hfm := List.mem_of_getElem? hj
  refine slot_of (ws := ws) (hin f hfm).1 (by have := (hc f hfm).1; omega) (target_length ..) ?_ (g4 j f v hj hv)
  intro p hp
  have := h4 r _ ws (List.getElem?_eq_getElem hnl) g2 p hp
  rw [Nat.zero_add] at this
  rw [this, replicate_get]
  have : (r + 1) * db.size ≤ ns.length * db.size := Nat.mul_le_mul_right _ (by omega)
  rw [Nat.succ_mul] at this
  omega

theorem inRows_pairs {fs : List Field} {rows : List (List Val)} (h : ∀ vs ∈ rows, vs.length = fs.length) (k : Nat) :
    List.Forall₂ (fun n vs => n.child = inNodes 0 vs ∧ vs.length = fs.length) (inRows k rows) rows := by
  induction rows generalizing k with
  | nil => exact .nil
  | cons vs rows ih => exact .cons ⟨rfl, h vs (by simp)⟩ (ih (fun w hw => h w (by simp [hw])) _)

theorem set_rows {fl : Fl} {db : Db} {fs : List Field} (hm : Made db) (hfs : FieldsAre db fs) (hc : ∀ f ∈ fs, f.count = 1 ∧ Texted f)
    {rows : List (List Val)} (hne : rows ≠ []) (hrows : ∀ vs ∈ rows, vs.length = fs.length ∧ ∀ v ∈ vs, Readable v)
    (h31 : rows.length * db.size < 2 ^ 31) :
    ∃ out, setChars fl db (rowsText rows) = some (some out) ∧ out.length = rows.length * db.size ∧
      ∀ (r : Nat) (vs : List Val) (j : Nat) (f : Field) (v : Val), rows[r]? = some vs → fs[j]? = some f → vs[j]? = some v → slot db.size out r f 0 = target fl f (some v) := by
  obtain ⟨out, h1, h2, h3⟩ := rows_slots (fl := fl) hm hfs hc (inRows_pairs (fun vs hv => (hrows vs hv).1) 0)
  refine ⟨out, ?_, h2, h3⟩
  have hl := load_rows fun vs hv => (hrows vs hv).2
  have hs : setChars fl db (rowsText rows) = arrayToStruct fl db (rowsText rows) := rfl
  have hnest : Json.nested (inRows 0 rows) = true := by
    cases rows with
    | nil => exact absurd rfl hne
    | cons vs rows => rfl
  rw [hs, arrayToStruct, hl]
  simp only [Option.bind_eq_bind, Option.bind_some, Json.Node.child, hnest, if_true, (fieldsOf_are hm hfs).1]
  rw [inRows_length] at h1 ⊢
  rw [if_neg (by omega), h1]
  rfl

theorem set_row {fl : Fl} {db : Db} {fs : List Field} (hm : Made db) (hfs : FieldsAre db fs) (hc : ∀ f ∈ fs, f.count = 1 ∧ Texted f)
    {vs : List Val} (hlen : vs.length = fs.length) (hvs : ∀ v ∈ vs, Readable v) :
    ∃ out, setChars fl db (rowText vs) = some (some out) ∧ out.length = db.size ∧
      ∀ (j : Nat) (f : Field) (v : Val), fs[j]? = some f → vs[j]? = some v → slot db.size out 0 f 0 = target fl f (some v) := by
  obtain ⟨out, h1, h2, h3⟩ := rows_slots (fl := fl) (ns := [.mk .array none none (inNodes 0 vs)]) (rows := [vs]) hm hfs hc
    (.cons ⟨rfl, hlen⟩ .nil)
  refine ⟨out, ?_, by simpa using h2, fun j f v => h3 0 vs j f v rfl⟩
  have hl := load_row hvs
  have hs : setChars fl db (rowText vs) = arrayToStruct fl db (rowText vs) := rfl
  have hnest : Json.nested (inNodes 0 vs) = false := by
    cases vs with
    | nil => rfl
    | cons v vs =>
      have := (inNode_ok (llutoa 0 32) true (hvs v (by simp))).2.2
      simp only [inNodes, Json.nested]
      simpa using this
  have := made_size hm
  rw [hs, arrayToStruct, hl]
  simp only [Option.bind_eq_bind, Option.bind_some, Json.Node.child, hnest, (fieldsOf_are hm hfs).1]
  simp only [List.length_singleton, Bool.false_eq_true, if_false] at h1 ⊢
  rw [if_neg (by omega), h1]
  rfl

/-! ### Records of objects -/

/-- The documents of the members of an object. -/
def inMembers (ms : List (Bytes × Val)) : List Node := ms.map fun m => inNode m.1 m.2

theorem okMembers_cons {n : Node} {cs : List Node} {k : Bytes} (h1 : n.key = some k) (h2 : okKey k) (h3 : Ok cs.isEmpty n)
    (h4 : OkMembers cs) : OkMembers (n :: cs) := by
  obtain ⟨ty, k, v, c⟩ := n
  exact ⟨⟨_, h1, h2⟩, h3, h4⟩

theorem load_object {ms : List (Bytes × Val)} (h : ∀ m ∈ ms, m.1 ≠ [] ∧ PlainText m.1 ∧ Readable m.2) :
    Json.load (objText ms) = some (some (.mk .object none none (inMembers ms))) := by
  have hok : OkMembers (inMembers ms) := by
    induction ms with
    | nil => trivial
    | cons m ms ih =>
      obtain ⟨h1, h2, h3⟩ := h m (by simp)
      exact okMembers_cons (inNode_key _ _) ⟨h1, fun c hc => ⟨(h2 c hc).1, (h2 c hc).2.2, (h2 c hc).2.1⟩⟩ (inNode_ok _ _ h3).1
        (ih fun m hm => h m (by simp [hm]))
  have htext : List.Forall₂ (fun (n : Node) (m : Bytes × Bytes) => n.key = some m.1 ∧ Json.toValue false (0 + 1) n = some m.2) (inMembers ms)
      (ms.map fun m => (m.1, item m.2)) := by
    clear hok
    induction ms with
    | nil => exact .nil
    | cons m ms ih => exact .cons ⟨inNode_key _ _, inNode_text _ _ (h m (by simp)).2.2⟩ (ih fun m hm => h m (by simp [hm]))
  obtain ⟨t, h1, h2⟩ := Json.load_text (fmt := false) (n := .mk .object none none (inMembers ms)) ⟨rfl, hok⟩ (.inr rfl) []
  rw [text_object htext (by
    intro m hm
    obtain ⟨m', hm', rfl⟩ := List.mem_map.1 hm
    exact (h m' hm').2.1)] at h1
  cases h1
  rw [List.append_nil] at h2
  exact h2

theorem plain_cstr {s : Bytes} (h : PlainText s) : CStr s := by
  intro c hc h0
  have := (h c hc).1
  rw [h0] at this
  revert this; decide

theorem member_look {ms : List (Bytes × Val)} (h : ∀ m ∈ ms, CStr m.1) {name : Bytes} (hn : CStr name) :
    (Json.member (inMembers ms) name).map Node.value = (look ms name).map fun v => some (content v) := by
  induction ms with
  | nil => rfl
  | cons m ms ih =>
    have i := ih fun m hm => h m (by simp [hm])
    have hnm : Json.named name (inNode m.1 m.2) = (m.1.map lower == name.map lower) := by
      rw [Json.named, inNode_key, Bool.eq_iff_iff]
      simp only [caseEq_iff (h m (by simp)) hn, beq_iff_eq]
    unfold Json.member inMembers look at *
    rw [List.map_cons, List.find?_cons, hnm, List.find?_cons]
    cases hb : (m.1.map lower == name.map lower) with
    | true => simp [inNode_value]
    | false => exact i

theorem dec_length {v : Nat} (h : v < 10 ^ 31) : (dec v).length ≤ 31 := by
  obtain ⟨r, h1, -, -, -, h5⟩ := digRev_some 32 v (by omega) h
  rw [digRev_dec 32 v (by omega) h] at h1
  cases h1
  simpa using h5

theorem nameOf_elem {f : Field} {e : Nat} (h : f.fname.length ≤ 31) (he : e < 10 ^ 31) : nameOf f e = elemName f e := by
  unfold nameOf elemName
  split
  · rename_i h1
    rw [numbered, llutoa_dec he, List.take_of_length_le]
    have := dec_length he
    simp; omega
  · rfl

theorem set_object {fl : Fl} {db : Db} {fs : List Field} (hm : Made db) (hfs : FieldsAre db fs)
    (hc : ∀ f ∈ fs, Texted f ∧ ∀ c ∈ f.fname, c ≠ 46 ∧ c ≠ 0)
    {ms : List (Bytes × Val)} (hms : ∀ m ∈ ms, m.1 ≠ [] ∧ PlainText m.1 ∧ Readable m.2) :
    ∃ out, setChars fl db (objText ms) = some (some out) ∧ out.length = db.size ∧
      ∀ f ∈ fs, ∀ e, e < f.count → slot db.size out 0 f e = target fl f (look ms (elemName f e)) := by
  have hin := (fieldsOf_are hm hfs).2
  have hap := fields_apart hm hfs
  have hsz := made_size hm
  have hl := load_object hms
  have hcell : ∀ f ∈ fs, ∀ e, e < f.count → ∃ ws, cellWrites fl f e (nameOf f e) (.mk .object none none (inMembers ms)) = some ws ∧
      Leaves ws (f.offset + e * f.len) (target fl f (look ms (elemName f e))) := by
    intro f hf e he
    obtain ⟨h1, h2⟩ := hc f hf
    have h3 := made_count hm hfs f hf
    have h4 := (hin f hf).2.2.2
    rw [nameOf_elem h4 (by omega)]
    apply cellWrites_val h1
    have hcs : ∀ c ∈ elemName f e, c ≠ 46 ∧ c ≠ 0 := by
      unfold elemName
      split
      · intro c hc
        rcases List.mem_append.1 hc with hc | hc
        · exact h2 c hc
        · exact ⟨(dec_cstr e).2 c hc, (dec_cstr e).1 c hc⟩
      · exact h2
    rw [find, Json.find_plain fun c hc => (hcs c hc).1]
    exact member_look (fun m hm => plain_cstr (hms m hm).2.1) fun c hc => (hcs c hc).2
  let wr : Nat → Field → Nat → List Dyn.W := fun _ f e => (cellWrites fl f e (nameOf f e) (.mk .object none none (inMembers ms))).getD []
  have hwr : ∀ f ∈ fs, ∀ e, e < f.count → ∀ k, cellWrites fl f e (nameOf f e) (.mk .object none none (inMembers ms)) = some (wr k f e) := by
    intro f hf e he k
    obtain ⟨ws, h1, -⟩ := hcell f hf e he
    simp only [wr]
    rw [h1]; rfl
  have hleave := cells_leave (k := 0) (wr := wr) (tg := fun _ f e => target fl f (look ms (elemName f e))) hap (fun f hf => (hin f hf).1) (by
    intro j f e hj he
    refine ⟨target_length .., ?_⟩
    obtain ⟨ws, h1, h2⟩ := hcell f (List.mem_of_getElem? hj) e he
    have : wr (0 + before fs j + e) f e = ws := by simp only [wr]; rw [h1]; rfl
    rw [this]
    exact h2)
  have how := objWrites_cells (fl := fl) (n := .mk .object none none (inMembers ms)) (wr := wr) fs 0 fun j f e hj he =>
    hwr f (List.mem_of_getElem? hj) e he (0 + before fs j + e)
  obtain ⟨out, ho⟩ := Dyn.puts_some (out := List.replicate db.size 0) (base := 0) hleave.1 (by simp)
  have hol := Dyn.puts_length ho
  rw [List.length_replicate] at hol
  refine ⟨out, ?_, hol, ?_⟩
  · have hs : setChars fl db (objText ms) = jsonToStruct fl db (objText ms) := rfl
    rw [hs, jsonToStruct, hl]
    simp only [Option.bind_eq_bind, Option.bind_some, (fieldsOf_are hm hfs).1, how, ho]
  · intro f hf e he
    obtain ⟨j, hj⟩ := List.getElem?_of_mem hf
    refine slot_of (hin f hf).1 he (target_length ..) ?_ (hleave.2 j f e hj he)
    intro p hp
    have := Dyn.puts_in ho p
    rw [Nat.zero_add, replicate_get _ _ hp] at this
    rw [Nat.zero_mul, Nat.zero_add]
    exact this

end Sis.Rec
