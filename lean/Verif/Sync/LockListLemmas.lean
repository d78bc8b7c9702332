import Verif.Sync.LockList
import Verif.Sync.LockQueueTheorems
/-
Specification of the shared list, and the lemmas behind C37 and C38.
-/
namespace Sis.Ll
open Sis
open Sis.Lk (Node Heap load Q)

/-- Every schedule: at each point some thread that is not blocked makes its next step. -/
inductive Hist (sz : Nat → Nat) (maxsize : Nat) : List (Ev × Out) → L → Prop
  | nil : Hist sz maxsize [] (create maxsize)
  | snoc {h s e s' o} : Hist sz maxsize h s → enabled s e = true → step sz s e = some (s', o) →
      Hist sz maxsize (h ++ [(e, o)]) s'

/-! ### Specification -/

/-- The messages put in, in order. -/
def pushed (h : List (Ev × Out)) : List Nat := h.filterMap fun x => match x.1 with
  | .push o => some o
  | _ => none

/-- The messages that reached the handler of reader `i`, in order. -/
def received (i : Nat) (h : List (Ev × Out)) : List Nat := h.filterMap fun x => match x.2 with
  | .received j o => if j = i then some o else none
  | _ => none

/-- The messages the list let go of, in order. -/
def freed (h : List (Ev × Out)) : List (Option Nat) := h.filterMap fun x => match x.2 with
  | .freed o => some o
  | _ => none

/-- The readers opened, in order: whether they read from the start. -/
def modes (h : List (Ev × Out)) : List Bool := h.filterMap fun x => match x.1 with
  | .openR f => some f
  | _ => none

/-- The messages reader `i` is to receive: all, or those put in after its thread first looked at the list. -/
def due (i : Nat) (h : List (Ev × Out)) : List Nat :=
  if (modes h)[i]? = some true then pushed h else pushed (h.dropWhile fun x => x.1 != .look i)

/-! ### Histories that grow -/

def pushes : Ev → List Nat
  | .push o => [o]
  | _ => []

theorem pushed_append (h g : List (Ev × Out)) : pushed (h ++ g) = pushed h ++ pushed g := by
  simp [pushed, List.filterMap_append]

theorem pushed_one (e : Ev) (o : Out) : pushed [(e, o)] = pushes e := by
  cases e <;> rfl

theorem pushed_snoc (h : List (Ev × Out)) (e : Ev) (o : Out) : pushed (h ++ [(e, o)]) = pushed h ++ pushes e := by
  rw [pushed_append, pushed_one]

theorem received_snoc (i : Nat) (h : List (Ev × Out)) (e : Ev) (o : Out) : received i (h ++ [(e, o)]) =
    received i h ++ received i [(e, o)] := by
  simp [received, List.filterMap_append]

theorem received_one_ne {i : Nat} {e : Ev} {o : Out} (ho : ∀ a, o ≠ .received i a) : received i [(e, o)] = [] := by
  cases o with
  | received j a =>
    have : j ≠ i := fun hj => ho a (by rw [hj])
    simp [received, this]
  | _ => rfl

def opens : Ev → List Bool
  | .openR f => [f]
  | _ => []

theorem modes_snoc (h : List (Ev × Out)) (e : Ev) (o : Out) : modes (h ++ [(e, o)]) = modes h ++ opens e := by
  simp only [modes, List.filterMap_append]
  cases e <;> simp [opens]

def frees : Out → List (Option Nat)
  | .freed o => [o]
  | _ => []

theorem freed_snoc (h : List (Ev × Out)) (e : Ev) (o : Out) : freed (h ++ [(e, o)]) = freed h ++ frees o := by
  simp only [freed, List.filterMap_append]
  cases o <;> simp [frees]

/-- Reader `i` looked at the list. -/
def seen (i : Nat) (h : List (Ev × Out)) : Prop := ∃ x ∈ h, x.1 = .look i

theorem seen_snoc {i : Nat} {h : List (Ev × Out)} (x : Ev × Out) (hs : seen i h) : seen i (h ++ [x]) := by
  obtain ⟨y, hy, e⟩ := hs
  exact ⟨y, List.mem_append_left _ hy, e⟩

theorem dropWhile_unseen {i : Nat} {h : List (Ev × Out)} (hs : ¬ seen i h) : h.dropWhile (fun x => x.1 != .look i) = [] := by
  induction h with
  | nil => rfl
  | cons a h ih =>
    have h1 : a.1 ≠ .look i := fun he => hs ⟨a, by simp, he⟩
    have h2 : ¬ seen i h := fun ⟨x, hx, he⟩ => hs ⟨x, by simp [hx], he⟩
    rw [List.dropWhile_cons, if_pos (by simpa using h1), ih h2]

theorem dropWhile_seen {i : Nat} {h : List (Ev × Out)} (g : List (Ev × Out)) (hs : seen i h) :
    (h ++ g).dropWhile (fun x => x.1 != .look i) = h.dropWhile (fun x => x.1 != .look i) ++ g := by
  induction h with
  | nil => obtain ⟨x, hx, _⟩ := hs; cases hx
  | cons a h ih =>
    rw [List.cons_append, List.dropWhile_cons, List.dropWhile_cons]
    by_cases h1 : a.1 = .look i
    · rw [if_neg (by simp [h1]), if_neg (by simp [h1])]
      rfl
    · rw [if_pos (by simpa using h1), if_pos (by simpa using h1)]
      refine ih ?_
      obtain ⟨x, hx, he⟩ := hs
      rcases List.mem_cons.1 hx with rfl | hx
      · exact absurd he h1
      · exact ⟨x, hx, he⟩

theorem modes_getElem {i : Nat} {h : List (Ev × Out)} (e : Ev) (o : Out) (hi : i < (modes h).length) :
    (modes (h ++ [(e, o)]))[i]? = (modes h)[i]? := by
  rw [modes_snoc, List.getElem?_append_left hi]

theorem due_seen {i : Nat} {h : List (Ev × Out)} (e : Ev) (o : Out) (hi : i < (modes h).length) (hs : seen i h) :
    due i (h ++ [(e, o)]) = due i h ++ pushes e := by
  unfold due
  rw [modes_getElem e o hi]
  split
  · exact pushed_snoc h e o
  · rw [dropWhile_seen _ hs, pushed_append, pushed_one]

theorem due_unseen {i : Nat} {h : List (Ev × Out)} (hs : ¬ seen i h) (hm : (modes h)[i]? ≠ some true) : due i h = [] := by
  unfold due
  rw [if_neg hm, dropWhile_unseen hs]
  rfl

theorem due_grow {i : Nat} {h : List (Ev × Out)} (e : Ev) (o : Out) (hi : i < (modes h).length) :
    ∃ d, due i (h ++ [(e, o)]) = due i h ++ d := by
  by_cases hs : seen i h
  · exact ⟨_, due_seen e o hi hs⟩
  · by_cases hm : (modes h)[i]? = some true
    · unfold due
      rw [modes_getElem e o hi, if_pos hm, if_pos hm]
      exact ⟨_, pushed_snoc h e o⟩
    · rw [due_unseen hs hm]
      exact ⟨_, rfl⟩

/-! ### The queue -/

structure Core (ps : List Nat) (q : Q) (p : Nat) : Prop where
  inv : Lk.Inv q ((ps.drop p).map some)
  hd : q.rhead = p
  pn : p ≤ ps.length

theorem node_at {ps : List Nat} {q : Q} {p : Nat} (v : Core ps q p) {a : Nat} (h1 : p ≤ a) (h2 : a ≤ ps.length) :
    ∃ o, load q.heap a = some ⟨o, if a < ps.length then some (a + 1) else none⟩ ∧ (p < a → o = ps[a - 1]?) := by
  obtain ⟨hi, hd, pn⟩ := v
  obtain ⟨o, ho⟩ := hi.linked.at_ (a - p) (by simp; omega)
  rw [hd, show p + (a - p) = a by omega] at ho
  simp only [List.length_map, List.length_drop] at ho
  refine ⟨o, ?_, ?_⟩
  · rw [ho]
    by_cases h3 : a < ps.length
    · rw [if_pos (by omega), if_pos h3]
    · rw [if_neg (by omega), if_neg h3]
  · intro h3
    have h4 := hi.linked.obj (a - p - 1) (by simp; omega)
    rw [hd, show p + (a - p - 1) + 1 = a by omega, ho] at h4
    simp only [Option.map_some, List.getElem_map, List.getElem_drop, Option.some.injEq] at h4
    rw [h4, List.getElem?_eq_getElem (by omega)]
    congr 2
    omega

theorem core_tail {ps : List Nat} {q : Q} {p : Nat} (v : Core ps q p) : q.rtail = ps.length := by
  obtain ⟨hi, hd, pn⟩ := v
  have := hi.tail
  simp only [List.length_map, List.length_drop] at this
  omega

theorem core_create : Core [] Lk.create 0 := ⟨Lk.inv_create, rfl, Nat.le_refl _⟩

theorem core_push {ps : List Nat} {q : Q} {p : Nat} (v : Core ps q p) (a : Nat) :
    ∃ q', Lk.push q (some a) = some q' ∧ Core (ps ++ [a]) q' p := by
  obtain ⟨hi, hd, pn⟩ := v
  obtain ⟨q', e1, e2, e3, -⟩ := Lk.push_spec hi (some a)
  refine ⟨q', e1, ?_, by rw [e3, hd], by simp; omega⟩
  rw [List.drop_append_of_le_length pn, List.map_append]
  exact e2

theorem core_pop {ps : List Nat} {q : Q} {p : Nat} (v : Core ps q p) (hp : p < ps.length) :
    ∃ q', Lk.pop q = some (q', some ps[p]) ∧ Core ps q' (p + 1) := by
  obtain ⟨hi, hd, pn⟩ := v
  rw [List.drop_eq_getElem_cons hp, List.map_cons] at hi
  obtain ⟨q', e1, e2, e3, -⟩ := Lk.pop_cons hi
  exact ⟨q', e1, e2, by rw [e3, hd], hp⟩

theorem core_next {ps : List Nat} {q : Q} {p : Nat} (v : Core ps q p) {a : Nat} (h1 : p ≤ a) (h2 : a ≤ ps.length) :
    Lk.next q a = some (if a < ps.length then some (a + 1) else none) := by
  obtain ⟨o, ho, -⟩ := node_at v h1 h2
  simp only [Lk.next, ho, Option.map_some]

theorem core_obj {ps : List Nat} {q : Q} {p : Nat} (v : Core ps q p) {a : Nat} (h1 : p < a) (h2 : a ≤ ps.length) :
    ∃ n, load q.heap a = some n ∧ n.obj = some (ps[a - 1]'(by omega)) := by
  obtain ⟨o, ho, h⟩ := node_at v (Nat.le_of_lt h1) h2
  refine ⟨_, ho, ?_⟩
  simp only
  rw [h h1, List.getElem?_eq_getElem (by omega)]

/-! ### The readers -/

/-- Reader `i` got what it was to get up to address `k`. -/
structure St (h : List (Ev × Out)) (i k st : Nat) : Prop where
  le : st ≤ k
  kn : k ≤ (pushed h).length
  due : due i h = (pushed h).drop st
  rcv : received i h = ((pushed h).drop st).take (k - st)
  seen : seen i h

def RI (h : List (Ev × Out)) (i : Nat) (r : Rd) : Prop := match r.pc with
  | .boot => r.cursor = none ∧ received i h = [] ∧ ¬ seen i h
  | .looked a => r.cursor = none ∧ ∃ st, St h i a st
  | .top => ∃ c, r.cursor = some c ∧ ∃ st, St h i c st
  | .got b => ∃ c, r.cursor = some c ∧ b = c + 1 ∧ b ≤ (pushed h).length ∧ ∃ st, St h i c st
  | .done b => ∃ c, r.cursor = some c ∧ b = c + 1 ∧ ∃ st, St h i b st
  | .closed => ∃ w, due i h = received i h ++ w

/-- No cursor of the reader is behind `p`. -/
def RSafe (p : Nat) (r : Rd) : Prop := match r.pc with
  | .boot => r.fromHead = true → p = 0
  | .looked a => p ≤ a
  | .closed => True
  | _ => ∀ c, r.cursor = some c → p ≤ c

structure Base (h : List (Ev × Out)) (s : L) (p : Nat) : Prop where
  core : Core (pushed h) s.q p
  modes : s.readers.map Rd.fromHead = modes h
  rd : ∀ (i : Nat) r, s.readers[i]? = some r → RI h i r
  fresh : ∀ i, s.readers.length ≤ i → received i h = [] ∧ ¬ seen i h
  free : freed h = ((pushed h).take p).map some

theorem St_mono {h : List (Ev × Out)} {i k st : Nat} {e : Ev} {o : Out} (hi : i < (Ll.modes h).length) (v : St h i k st)
    (ho : ∀ a, o ≠ .received i a) : St (h ++ [(e, o)]) i k st := by
  obtain ⟨h1, h2, h3, h4, h5⟩ := v
  refine ⟨h1, ?_, ?_, ?_, seen_snoc _ h5⟩
  · rw [pushed_snoc]; simp; omega
  · rw [due_seen e o hi h5, h3, pushed_snoc, List.drop_append_of_le_length (by omega)]
  · rw [received_snoc, received_one_ne ho, h4, pushed_snoc, List.drop_append_of_le_length (by omega),
      List.take_append_of_le_length (by simp; omega), List.append_nil]

theorem RI_mono {h : List (Ev × Out)} {i : Nat} {r : Rd} {e : Ev} {o : Out} (hi : i < (Ll.modes h).length) (v : RI h i r)
    (ho : ∀ a, o ≠ .received i a) (he : e ≠ .look i) : RI (h ++ [(e, o)]) i r := by
  unfold RI at v ⊢
  cases hp : r.pc with
  | boot =>
    rw [hp] at v
    obtain ⟨h1, h2, h3⟩ := v
    refine ⟨h1, by rw [received_snoc, received_one_ne ho, h2, List.append_nil], ?_⟩
    rintro ⟨x, hx, hxe⟩
    rcases List.mem_append.1 hx with hx | hx
    · exact h3 ⟨x, hx, hxe⟩
    · simp only [List.mem_singleton] at hx
      subst hx
      exact he hxe
  | looked a =>
    rw [hp] at v
    obtain ⟨h1, st, h2⟩ := v
    exact ⟨h1, st, St_mono hi h2 ho⟩
  | top =>
    rw [hp] at v
    obtain ⟨c, h1, st, h2⟩ := v
    exact ⟨c, h1, st, St_mono hi h2 ho⟩
  | got b =>
    rw [hp] at v
    obtain ⟨c, h1, h2, h3, st, h4⟩ := v
    exact ⟨c, h1, h2, by rw [pushed_snoc]; simp; omega, st, St_mono hi h4 ho⟩
  | done b =>
    rw [hp] at v
    obtain ⟨c, h1, h2, st, h4⟩ := v
    exact ⟨c, h1, h2, st, St_mono hi h4 ho⟩
  | closed =>
    rw [hp] at v
    obtain ⟨w, h1⟩ := v
    obtain ⟨d, hd⟩ := due_grow e o hi
    refine ⟨w ++ d, ?_⟩
    rw [hd, h1, received_snoc, received_one_ne ho, List.append_nil, List.append_assoc]

/-- What `due` and `received` say of a reader at any point. -/
theorem RI_due {h : List (Ev × Out)} {i : Nat} {r : Rd} (v : RI h i r) : ∃ w, due i h = received i h ++ w := by
  have key : ∀ {k st}, St h i k st → ∃ w, due i h = received i h ++ w := by
    intro k st v
    exact ⟨_, by rw [v.due, v.rcv, List.take_append_drop]⟩
  unfold RI at v
  cases hp : r.pc with
  | boot => rw [hp] at v; exact ⟨_, by rw [v.2.1]; rfl⟩
  | looked a => rw [hp] at v; obtain ⟨_, _, h2⟩ := v; exact key h2
  | top => rw [hp] at v; obtain ⟨_, _, _, h2⟩ := v; exact key h2
  | got b => rw [hp] at v; obtain ⟨_, _, _, _, _, h2⟩ := v; exact key h2
  | done b => rw [hp] at v; obtain ⟨_, _, _, _, h2⟩ := v; exact key h2
  | closed => rw [hp] at v; exact v

/-- A step that changes no reader. -/
theorem base_same {h : List (Ev × Out)} {s s' : L} {p : Nat} {e : Ev} {o : Out} (v : Base h s p)
    (hr : s'.readers = s.readers) (hc : Core (pushed h ++ pushes e) s'.q p)
    (ho : ∀ i a, o ≠ .received i a) (hf : frees o = []) (he : ∀ i, e ≠ .look i) (hm : opens e = []) :
    Base (h ++ [(e, o)]) s' p := by
  refine ⟨by rw [pushed_snoc]; exact hc, by rw [hr, v.modes, modes_snoc, hm, List.append_nil], ?_, ?_, ?_⟩
  · intro i r hir
    rw [hr] at hir
    have hl : i < (Ll.modes h).length := by
      rw [← v.modes, List.length_map]
      exact (List.getElem?_eq_some_iff.1 hir).1
    exact RI_mono hl (v.rd i r hir) (ho i) (he i)
  · intro i hi
    rw [hr] at hi
    obtain ⟨h1, h2⟩ := v.fresh i hi
    refine ⟨by rw [received_snoc, received_one_ne (ho i), h1]; rfl, ?_⟩
    rintro ⟨x, hx, hxe⟩
    rcases List.mem_append.1 hx with hx | hx
    · exact h2 ⟨x, hx, hxe⟩
    · simp only [List.mem_singleton] at hx
      subst hx
      exact he i hxe
  · rw [freed_snoc, hf, List.append_nil, v.free, pushed_snoc, List.take_append_of_le_length v.core.pn]

/-- A step of the thread of reader `i`. -/
theorem base_reader {h : List (Ev × Out)} {s : L} {p i : Nat} {e : Ev} {o : Out} {r' : Rd} {r : Rd} (v : Base h s p)
    (hr : s.readers[i]? = some r) (hm : r'.fromHead = r.fromHead) (hp : pushes e = []) (hop : opens e = [])
    (ho : ∀ j a, o = .received j a → j = i) (hf : frees o = []) (he : ∀ j, e = .look j → j = i)
    (hi : RI (h ++ [(e, o)]) i r') : Base (h ++ [(e, o)]) (setR s i r') p := by
  have hil : i < s.readers.length := (List.getElem?_eq_some_iff.1 hr).1
  refine ⟨by rw [pushed_snoc, hp, List.append_nil]; exact v.core, ?_, ?_, ?_, ?_⟩
  · rw [modes_snoc, hop, List.append_nil, ← v.modes]
    simp only [setR, List.map_set]
    refine List.ext_getElem? fun j => ?_
    rw [List.getElem?_set]
    by_cases hj : i = j
    · subst hj
      rw [if_pos rfl, if_pos (by simpa using hil), List.getElem?_map, hr, hm]
      rfl
    · rw [if_neg hj]
  · intro j rj hj
    simp only [setR] at hj
    rw [List.getElem?_set] at hj
    by_cases hij : i = j
    · subst hij
      rw [if_pos rfl, if_pos hil] at hj
      cases hj
      exact hi
    · rw [if_neg hij] at hj
      have hl : j < (Ll.modes h).length := by
        rw [← v.modes, List.length_map]
        exact (List.getElem?_eq_some_iff.1 hj).1
      exact RI_mono hl (v.rd j rj hj) (fun a ha => hij (ho j a ha).symm) (fun hx => hij (he j hx).symm)
  · intro j hj
    simp only [setR, List.length_set] at hj
    obtain ⟨h1, h2⟩ := v.fresh j hj
    refine ⟨?_, ?_⟩
    · rw [received_snoc, received_one_ne (fun a ha => by have := ho j a ha; omega), h1]; rfl
    · rintro ⟨x, hx, hxe⟩
      rcases List.mem_append.1 hx with hx | hx
      · exact h2 ⟨x, hx, hxe⟩
      · simp only [List.mem_singleton] at hx
        subst hx
        have := he j hxe
        omega
  · rw [freed_snoc, hf, List.append_nil, v.free, pushed_snoc, hp, List.append_nil]

/-- The events of the thread of reader `i`. -/
def rev : RPc → Nat → Ev
  | .boot, i => .look i
  | .looked _, i => .set i
  | .top, i => .fetch i
  | .got _, i => .recv i
  | .done _, i => .adv i
  | .closed, i => .fetch i

/-- What a step of a reader's thread does. -/
theorem reader_step {h : List (Ev × Out)} {s : L} {p i : Nat} {r : Rd} (v : Base h s p) (hr : s.readers[i]? = some r)
    (hs : RSafe p r) (hnc : r.pc ≠ .closed) : ∃ r' o, rstep s i r = some (setR s i r', o) ∧
    Base (h ++ [(rev r.pc i, o)]) (setR s i r') p ∧ RSafe p r' ∧ r'.fromHead = r.fromHead ∧ r'.pc ≠ .closed ∧
    (∀ c, r.cursor = some c → ∃ c', r'.cursor = some c' ∧ c ≤ c') ∧
    (∀ a, r.pc = .looked a → r' = ⟨r.fromHead, some a, .top⟩) ∧
    (r.pc = .boot → r' = ⟨r.fromHead, none, .looked (if r.fromHead then Lk.head s.q else Lk.tail s.q)⟩) ∧
    (∀ c, r.cursor = some c → r.pc = .top → o = .unit ∧
      r' = if c < (pushed h).length then ⟨r.fromHead, some c, .got (c + 1)⟩ else r) ∧
    (∀ c, r.cursor = some c → r.pc = .got (c + 1) → (pushed h)[c]? = (match o with
      | .received j x => if j = i then some x else none
      | _ => none) ∧ r' = ⟨r.fromHead, some c, .done (c + 1)⟩) ∧
    (∀ c, r.pc = .done c → o = .unit ∧ r' = ⟨r.fromHead, some c, .top⟩) := by
  have hil : i < s.readers.length := (List.getElem?_eq_some_iff.1 hr).1
  have hml : i < (Ll.modes h).length := by rw [← v.modes, List.length_map]; exact hil
  have hri := v.rd i r hr
  have hsame : setR s i r = s := by
    unfold setR
    congr
    refine List.ext_getElem? fun j => ?_
    rw [List.getElem?_set]
    by_cases hj : i = j
    · subst hj; rw [if_pos rfl, if_pos hil, hr]
    · rw [if_neg hj]
  obtain ⟨fh, cur, pc⟩ := r
  cases pc with
  | closed => exact absurd rfl hnc
  | boot =>
    obtain ⟨h1, h2, h3⟩ := hri
    simp only at h1
    subst h1
    have hmode : (Ll.modes h)[i]? = some fh := by
      rw [← v.modes, List.getElem?_map, hr]; rfl
    generalize ha : (if fh = true then Lk.head s.q else Lk.tail s.q) = a
    have hda : St (h ++ [(.look i, .unit)]) i a a ∧ p ≤ a := by
      have hd : due i (h ++ [(.look i, .unit)]) = if fh then pushed h else [] := by
        unfold due
        rw [modes_getElem _ _ hml, hmode]
        cases fh with
        | true => rw [if_pos rfl, if_pos rfl, pushed_snoc]; simp [pushes]
        | false =>
          rw [if_neg (by simp), if_neg (by simp)]
          rw [List.dropWhile_append, dropWhile_unseen h3]
          simp [pushed]
      have hrc : received i (h ++ [(.look i, .unit)]) = [] := by
        rw [received_snoc, h2]; rfl
      have hse : seen i (h ++ [(.look i, .unit)]) := ⟨_, List.mem_append_right _ (List.mem_singleton.2 rfl), rfl⟩
      have hpu : pushed (h ++ [(.look i, .unit)]) = pushed h := by rw [pushed_snoc]; simp [pushes]
      cases fh with
      | true =>
        have hp0 : p = 0 := hs rfl
        have : a = 0 := by rw [← ha]; simp [Lk.head, v.core.hd, hp0]
        subst this
        refine ⟨⟨Nat.le_refl _, Nat.zero_le _, ?_, ?_, hse⟩, by omega⟩
        · rw [hd, hpu]; rfl
        · rw [hrc]; simp
      | false =>
        have : a = (pushed h).length := by rw [← ha]; simp [Lk.tail, core_tail v.core]
        subst this
        refine ⟨⟨Nat.le_refl _, by rw [hpu]; exact Nat.le_refl _, ?_, ?_, hse⟩, v.core.pn⟩
        · rw [hd, hpu]; simp
        · rw [hrc]; simp
    refine ⟨⟨fh, none, .looked a⟩, .unit, by simp only [rstep, ha], ?_, hda.2, rfl, nofun, nofun, nofun, fun _ => rfl, nofun,
      nofun, nofun⟩
    exact base_reader v hr rfl rfl rfl nofun rfl (fun j hj => by cases hj; rfl) ⟨rfl, a, hda.1⟩
  | looked a =>
    obtain ⟨h1, st, h2⟩ := hri
    simp only at h1
    subst h1
    refine ⟨⟨fh, some a, .top⟩, .unit, rfl, ?_, fun c hc => by cases hc; exact hs, rfl, nofun, nofun,
      fun b hb => by cases hb; rfl, nofun, nofun, nofun, nofun⟩
    exact base_reader v hr rfl rfl rfl nofun rfl nofun ⟨a, rfl, st, St_mono hml h2 nofun⟩
  | top =>
    obtain ⟨c, h1, st, h2⟩ := hri
    simp only at h1
    subst h1
    have hpc : p ≤ c := hs c rfl
    have hn := core_next v.core hpc h2.kn
    by_cases hc : c < (pushed h).length
    · rw [if_pos hc] at hn
      refine ⟨⟨fh, some c, .got (c + 1)⟩, .unit, by simp only [rstep, hn, Option.map_some], ?_, hs, rfl, nofun,
        fun d hd => ⟨c, rfl, by cases hd; exact Nat.le_refl _⟩, nofun, nofun,
        fun d hd _ => ⟨rfl, by cases hd; rw [if_pos hc]⟩, nofun, nofun⟩
      exact base_reader v hr rfl rfl rfl nofun rfl nofun ⟨c, rfl, rfl, by rw [pushed_snoc]; simp; omega, st,
        St_mono hml h2 nofun⟩
    · rw [if_neg hc] at hn
      refine ⟨⟨fh, some c, .top⟩, .unit, by simp only [rstep, hn, Option.map_some, hsame], ?_, hs, rfl, nofun,
        fun d hd => ⟨c, rfl, by cases hd; exact Nat.le_refl _⟩, nofun, nofun,
        fun d hd _ => ⟨rfl, by cases hd; rw [if_neg hc]⟩, nofun, nofun⟩
      exact base_reader v hr rfl rfl rfl nofun rfl nofun ⟨c, rfl, st, St_mono hml h2 nofun⟩
  | got b =>
    obtain ⟨c, h1, rfl, h2, st, h3⟩ := hri
    simp only at h1
    subst h1
    have hpc : p ≤ c := hs c rfl
    obtain ⟨n, e1, e2⟩ := core_obj v.core (show p < c + 1 by omega) h2
    simp only [Nat.add_sub_cancel] at e2
    refine ⟨⟨fh, some c, .done (c + 1)⟩, .received i (pushed h)[c], by simp only [rstep, e1, Option.map_some, e2], ?_, hs, rfl,
      nofun, fun d hd => ⟨c, rfl, by cases hd; exact Nat.le_refl _⟩, nofun, nofun, nofun, ?_, nofun⟩
    · refine base_reader v hr rfl rfl rfl (fun j a hj => by cases hj; rfl) rfl nofun ⟨c, rfl, rfl, st, ?_⟩
      obtain ⟨f1, f2, f3, f4, f5⟩ := h3
      refine ⟨by omega, by rw [pushed_snoc]; simp; omega, ?_, ?_, seen_snoc _ f5⟩
      · rw [due_seen _ _ hml f5, f3, pushed_snoc]; simp [rev, pushes]
      · rw [received_snoc, f4, pushed_snoc, show c + 1 - st = (c - st) + 1 by omega, List.take_add_one]
        simp only [rev, pushes, List.append_nil, List.getElem?_drop]
        rw [show st + (c - st) = c by omega, List.getElem?_eq_getElem (by omega)]
        simp [received]
    · intro d hd _
      cases hd
      refine ⟨?_, rfl⟩
      simp only [if_true]
      rw [List.getElem?_eq_getElem (by omega)]
  | done b =>
    obtain ⟨c, h1, rfl, st, h3⟩ := hri
    simp only at h1
    subst h1
    have hpc : p ≤ c := hs c rfl
    refine ⟨⟨fh, some (c + 1), .top⟩, .unit, rfl, ?_, fun d hd => by cases hd; omega, rfl, nofun,
      fun d hd => ⟨c + 1, rfl, by cases hd; omega⟩, nofun, nofun, nofun, nofun, fun d hd => ⟨rfl, by cases hd; rfl⟩⟩
    exact base_reader v hr rfl rfl rfl nofun rfl nofun ⟨c + 1, rfl, st, St_mono hml h3 nofun⟩

end Sis.Ll
