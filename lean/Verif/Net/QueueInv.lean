import Verif.Net.QueueLemmas
/- The packets held by the nodes of a queue. -/
namespace Sis.Nq
open Sis

/-- A packet as it lies in a node. -/
def enc (m : Bytes) : Bytes := leBytes 4 m.length ++ m

def Small (m : Bytes) : Prop := m.length < 2147483648

/-- Node `nd` holds the unread packets `ms`. -/
def Holds (nd : Node) (ms : List Bytes) : Prop :=
  nd.rpos ≤ nd.data.length ∧ nd.data.drop nd.rpos = ms.flatMap enc ∧ ∀ m ∈ ms, Small m

inductive Q : List Node → List Bytes → Prop
  | nil : Q [] []
  | cons {nd rest ms q} : Holds nd ms → Q rest q → Q (nd :: rest) (ms ++ q)

theorem enc_length (m : Bytes) : (enc m).length = m.length + 4 := by simp [enc]; omega

theorem Q.append {a b : List Node} {x y : List Bytes} (ha : Q a x) (hb : Q b y) : Q (a ++ b) (x ++ y) := by
  induction ha with
  | nil => exact hb
  | cons h _ ih => rw [List.append_assoc]; exact .cons h ih

theorem Q.split {a b : List Node} {z : List Bytes} (h : Q (a ++ b) z) : ∃ x y, z = x ++ y ∧ Q a x ∧ Q b y := by
  induction a generalizing z with
  | nil => exact ⟨[], z, rfl, .nil, h⟩
  | cons nd a ih =>
    cases h with
    | cons h1 h2 =>
      obtain ⟨x, y, rfl, hx, hy⟩ := ih h2
      exact ⟨_, _, (List.append_assoc _ _ _).symm, .cons h1 hx, hy⟩

theorem Q.one {nd : Node} {ms : List Bytes} : Q [nd] ms ↔ Holds nd ms := by
  constructor
  · intro h
    cases h with
    | cons h1 h2 => cases h2; simpa using h1
  · intro h
    have := Q.cons h .nil
    simpa using this

theorem holds_nil {nd : Node} {ms : List Bytes} (h : Holds nd ms) (hu : nd.data.length ≤ nd.rpos) : ms = [] := by
  cases ms with
  | nil => rfl
  | cons m ms =>
    have := congrArg List.length h.2.1
    simp only [List.length_drop, List.flatMap_cons, List.length_append, enc_length] at this
    omega

theorem Q.empty {l : List Node} {q : List Bytes} (h : Q l q) (hl : ∀ n ∈ l, n.data.length ≤ n.rpos) : q = [] := by
  induction h with
  | nil => rfl
  | cons h _ ih =>
    rw [holds_nil h (hl _ (by simp)), ih fun n hn => hl n (by simp [hn])]
    rfl

theorem Q.empties {l : List Node} (h : ∀ n ∈ l, n.data = [] ∧ n.rpos = 0) : Q l [] := by
  induction l with
  | nil => exact .nil
  | cons nd l ih =>
    have := h nd (by simp)
    exact .cons (ms := []) ⟨by simp [this.2], by simp [this.1], by simp⟩ (ih fun n hn => h n (by simp [hn]))

/-- Bytes taken by unread packets. -/
def weight (q : List Bytes) : Nat := (q.map fun m => m.length + 4).sum

theorem weight_append (a b : List Bytes) : weight (a ++ b) = weight a + weight b := by simp [weight]

theorem weight_zero {q : List Bytes} (h : weight q = 0) : q = [] := by
  cases q with
  | nil => rfl
  | cons m q => simp [weight] at h

theorem weight_flat (q : List Bytes) : (q.flatMap enc).length = weight q := by
  induction q with
  | nil => rfl
  | cons m q ih => rw [List.flatMap_cons, List.length_append, ih, enc_length]; simp [weight]

theorem Q.bytes {l : List Node} {q : List Bytes} (h : Q l q) (h0 : ∀ n ∈ l, n.rpos = 0) :
    (l.flatMap Node.data).length = weight q := by
  induction h with
  | nil => rfl
  | @cons nd rest ms q h1 _ ih =>
    rw [List.flatMap_cons, List.length_append, ih fun n hn => h0 n (by simp [hn]), weight_append]
    have := congrArg List.length h1.2.1
    rw [h0 nd (by simp), List.drop_zero, weight_flat] at this
    omega

/-- Shape of the read list: behind the head first the unread nodes, then the used ones. -/
def Shape : List Node → Prop
  | [] => True
  | _ :: t => ∃ b c, t = b ++ c ∧ (∀ n ∈ b, n.rpos < n.data.length) ∧ ∀ n ∈ c, n.data = [] ∧ n.rpos = 0

/-- Packets `qr` are in the read list, `qw` in the write list. -/
structure Inv (s : Mems) (qr qw : List Bytes) : Prop where
  w : W s
  rq : Q s.r qr
  wq : Q (s.wpre ++ [s.wnode]) qw
  rnums : s.rnums = s.r.length
  rsize : s.rsize = weight qr
  shape : Shape s.r

theorem Inv_create : Inv create [] [] :=
  ⟨W_create, .nil, Q.empties (by simp [create, Node.create]), rfl, rfl, trivial⟩

theorem rpos0 {s : Mems} (h : W s) : ∀ n ∈ s.wpre ++ [s.wnode], n.rpos = 0 := by
  intro n hn
  rcases List.mem_append.1 hn with hn | hn
  · exact (h.pre n hn).2
  · rw [List.mem_singleton.1 hn]; exact h.cur

theorem Inv.wsize {s : Mems} {qr qw : List Bytes} (h : Inv s qr qw) : s.wsize = weight qw := by
  rw [h.w.size, ← h.wq.bytes (rpos0 h.w)]
  simp

theorem Inv.size {s : Mems} {qr qw : List Bytes} (h : Inv s qr qw) : Nq.size s = weight (qr ++ qw) := by
  rw [Nq.size, h.wsize, h.rsize, weight_append]

theorem Inv.write {s : Mems} {qr qw : List Bytes} (h : Inv s qr qw) (m : Bytes) (hm : m.length + 4 ≤ memSize + 1)
    (f : Nat → Nat) : ∃ s', Nq.write s (enc m) f = some s' ∧ Inv s' qr (qw ++ [m]) := by
  obtain ⟨s', e, hw, e1, e2, e3, h4⟩ := write_spec h.w (enc m) f (by rw [enc_length]; omega)
  refine ⟨s', e, hw, e1 ▸ h.rq, ?_, by rw [e2, e1]; exact h.rnums, by rw [e3]; exact h.rsize, e1 ▸ h.shape⟩
  have hsm : Small m := by simp only [memSize] at hm; simp only [Small]; omega
  rcases h4 with ⟨p1, p2⟩ | ⟨p1, p2⟩
  · obtain ⟨x, y, rfl, hx, hy⟩ := h.wq.split
    rw [p1, List.append_assoc]
    refine hx.append (Q.one.2 ?_)
    have hy := Q.one.1 hy
    refine ⟨by rw [hw.cur]; omega, ?_, ?_⟩
    · have := hy.2.1
      rw [h.w.cur] at this
      rw [hw.cur, p2, List.drop_zero, List.flatMap_append, ← this]
      simp
    · intro n hn
      rcases List.mem_append.1 hn with hn | hn
      · exact hy.2.2 n hn
      · rw [List.mem_singleton.1 hn]; exact hsm
  · rw [p1]
    refine h.wq.append (Q.one.2 ⟨by rw [hw.cur]; omega, ?_, ?_⟩)
    · rw [hw.cur, p2]; simp
    · intro n hn; rw [List.mem_singleton.1 hn]; exact hsm

theorem Inv.moveRead {s : Mems} {qr qw : List Bytes} (h : Inv s qr qw) : Inv (Nq.moveRead s) [] qw :=
  ⟨W_moveRead h.w, .nil, h.wq, rfl, rfl, trivial⟩

theorem moveWrite_r (s : Mems) : (moveWrite s).r = s.r ∧ (moveWrite s).rnums = s.rnums ∧
    (moveWrite s).rsize = s.rsize := by
  unfold moveWrite
  split <;> exact ⟨rfl, rfl, rfl⟩

theorem moveWrite_w (s : Mems) : (moveWrite s).wpre = [] ∧ (moveWrite s).wnode.data = [] ∧
    (moveWrite s).wnode.rpos = 0 := by
  unfold moveWrite
  split
  · next h => exact ⟨h, rfl, rfl⟩
  · exact ⟨rfl, rfl, rfl⟩

theorem Inv.clear {s : Mems} {qr qw : List Bytes} (h : Inv s qr qw) : Inv (Nq.clear s) [] [] := by
  have hw := moveWrite_w s
  refine Inv.moveRead (qr := qr) ⟨W_moveWrite h.w, (moveWrite_r s).1 ▸ h.rq, ?_, ?_, ?_, (moveWrite_r s).1 ▸ h.shape⟩
  · rw [hw.1]
    exact Q.empties fun n hn => by rw [List.mem_singleton.1 hn]; exact hw.2
  · rw [(moveWrite_r s).1, (moveWrite_r s).2.1]; exact h.rnums
  · rw [(moveWrite_r s).2.2]; exact h.rsize

theorem read_body {s : Mems} {qw : List Bytes} (h : Inv s [] qw) (n : Nat) :
    ∃ s' qr' qw', Nq.read s n true = some (s', s'.rnums) ∧ Inv s' qr' qw' ∧ qw = qr' ++ qw' ∧
      (n = 0 → qw' = []) ∧ (s'.rnums = 0 → qr' = []) ∧ (s'.rnums = 0 ↔ s'.r = []) ∧ (s'.rnums = 0 → qw = []) ∧
      (s'.rnums > 0 → qr' ≠ []) ∧ (n ≠ 0 → s'.rnums ≤ n) := by
  have hm := h.moveRead
  unfold Nq.read
  rw [if_neg (by rw [h.rsize]; simp [weight])]
  simp only [if_true]
  obtain ⟨s', mv, rest, e1, e2, e3, e4, e5, e6, e7, e8, e9, e10⟩ :=
    readLoop_spec (if (n : Int) = 0 then ((Nq.moveRead s).wuses : Int) else n) _ _ hm.w rfl
  rw [e1]
  have hq := hm.wq
  rw [e3] at hq
  obtain ⟨x, y, rfl, hx, hy⟩ := hq.split
  have hr : (Nq.moveRead s).r = [] := rfl
  have hrn : (Nq.moveRead s).rnums = 0 := rfl
  have hrs : (Nq.moveRead s).rsize = 0 := rfl
  rw [hr, List.nil_append] at e6
  rw [hrn, Nat.zero_add] at e7
  rw [hrs, Nat.zero_add] at e8
  have hyw : Q (s'.wpre ++ [s'.wnode]) y := by
    rcases e5 with e5 | ⟨e5, e5', e5''⟩
    · exact e5 ▸ hy
    · subst e5
      cases hy
      rw [e5']
      exact Q.empties fun n hn => by rw [List.mem_singleton.1 hn]; exact ⟨e5'', e2.cur⟩
  have hxw : mv ≠ [] → x ≠ [] := by
    intro hne hx0
    have := hx.bytes fun n hn => (e4 n hn).2
    rw [hx0] at this
    cases hmv : mv with
    | nil => exact hne hmv
    | cons a t =>
      rw [hmv] at this
      have ha := (e4 a (by simp [hmv])).1
      rw [List.flatMap_cons, List.length_append] at this
      have hp := List.length_pos_iff.2 ha
      have h0 : weight [] = 0 := rfl
      omega
  refine ⟨s', x, y, rfl, ⟨e2, e6 ▸ hx, hyw, by rw [e7, e6], ?_, ?_⟩, rfl, ?_, ?_, ?_, ?_, ?_, ?_⟩
  · rw [e8, hx.bytes fun n hn => (e4 n hn).2]
  · rw [e6]
    cases mv with
    | nil => trivial
    | cons a t =>
      refine ⟨t, [], by simp, fun n hn => ?_, by simp⟩
      have := e4 n (by simp [hn])
      rw [this.2]
      exact List.length_pos_iff.2 this.1
  · intro hn
    have hu := hm.w.uses
    obtain ⟨p1, p2⟩ := e9 (by simp) (by rw [hrn]; simp [hn]; omega)
    rw [p1] at hyw
    exact hyw.empty fun n hn => by rw [List.mem_singleton.1 hn, p2]; simp
  · intro h0
    rw [e7] at h0
    rw [List.length_eq_zero_iff.1 h0] at hx
    cases hx; rfl
  · rw [e7, e6]; exact List.length_eq_zero_iff
  · intro h0
    rw [e7] at h0
    have hmv := List.length_eq_zero_iff.1 h0
    have hwh : (whead (Nq.moveRead s)).data = [] := by
      refine Classical.byContradiction fun hc => ?_
      refine e10 hc ?_ hmv
      rw [hrn]
      have hu := hm.w.uses
      have : 0 < used (Nq.moveRead s) := by
        unfold used
        cases hp : (Nq.moveRead s).wpre with
        | cons a p => simp; omega
        | nil =>
          have : (Nq.moveRead s).wnode.data ≠ [] := by rwa [whead, hp] at hc
          simp [this]
      split
      · omega
      · omega
    have hpre : (Nq.moveRead s).wpre = [] := by
      cases hp : (Nq.moveRead s).wpre with
      | nil => rfl
      | cons a p =>
        rw [whead, hp] at hwh
        exact absurd hwh (hm.w.pre a (by simp [hp])).1
    refine hm.wq.empty fun n hn => ?_
    rw [hpre] at hn
    rw [List.mem_singleton.1 hn]
    rw [whead, hpre] at hwh
    have : (Nq.moveRead s).wnode.data = [] := hwh
    simp [this]
  · intro h0
    apply hxw
    intro hmv
    rw [e7, hmv] at h0
    simp at h0
  · intro hn0
    rw [e7]
    have := hm
    clear hxw hyw e9 e10
    -- the limit
    have lim : ∀ (L : Int) (k : Nat) (a b : Mems), readLoop L k a = some b → (a.rnums : Int) ≤ L → (b.rnums : Int) ≤ L := by
      intro L k
      induction k with
      | zero => intro a b e hl; simp only [readLoop, Option.some.injEq] at e; subst e; exact hl
      | succ k ih =>
        intro a b e hl
        unfold readLoop at e
        split at e
        · next hc =>
          obtain ⟨c, hc1, hc2⟩ := Option.bind_eq_some_iff.1 e
          refine ih c b hc2 ?_
          have : c.rnums = a.rnums + 1 := by
            unfold takeOne at hc1
            split at hc1
            · cases hc1
            · split at hc1 <;> (simp only [Option.some.injEq] at hc1; subst hc1; rfl)
          omega
        · simp only [Option.some.injEq] at e; subst e; exact hl
    have := lim _ _ _ _ e1 (by rw [hrn]; split <;> omega)
    rw [if_neg (by omega), e7] at this
    omega

theorem popHead_msg {s : Mems} {nd : Node} {rest : List Node} {m : Bytes} {ms : List Bytes}
    (h : Holds nd (m :: ms)) (hs : m.length + 4 ≤ s.rsize) :
    popHead s nd rest = some ({ s with r := { nd with rpos := nd.rpos + (m.length + 4) } :: rest
                                       rsize := s.rsize - (m.length + 4) }, some m) ∧
      Holds { nd with rpos := nd.rpos + (m.length + 4) } ms := by
  obtain ⟨h1, h2, h3⟩ := h
  have hm : m.length < 2147483648 := h3 m (by simp)
  have hl := congrArg List.length h2
  simp only [List.length_drop, List.flatMap_cons, List.length_append, enc_length] at hl
  constructor
  · unfold popHead
    rw [if_pos (by omega), h2, List.flatMap_cons, enc, List.append_assoc, takeBytes_append' _ (leBytes_length 4 _)]
    simp only
    rw [leVal_leBytes, Nat.mod_eq_of_lt (by omega), if_pos hm, takeBytes_append]
    simp only
    rw [if_neg (by omega)]
  · refine ⟨by simp only; omega, ?_, fun n hn => h3 n (by simp [hn])⟩
    simp only
    rw [← List.drop_drop, h2, List.flatMap_cons]
    have : m.length + 4 = (enc m).length := (enc_length m).symm
    rw [this, List.drop_left]

theorem pop_body {s : Mems} {qr qw : List Bytes} (h : Inv s qr qw) (hr : s.r ≠ []) :
    (∃ m qr' s', qr = m :: qr' ∧ Nq.pop s = some (s', some m) ∧ Inv s' qr' qw ∧ s'.r ≠ []) ∨
    (qr = [] ∧ ∃ s', Nq.pop s = some (s', none) ∧ Inv s' [] qw ∧ s'.r ≠ []) := by
  obtain ⟨hw, hq, hwq, hn, hz, hsh⟩ := h
  have wirrel : ∀ (r : List Node) (z : Nat), W { s with r := r, rsize := z } := by
    intro r z
    obtain ⟨a1, a2, a3, a4, a5, a6, a7, a8⟩ := hw
    exact ⟨a1, a2, a3, a4, a5, a6, a7, a8⟩
  cases hrr : s.r with
  | nil => exact absurd hrr hr
  | cons nd rest =>
    rw [hrr] at hq hsh hn
    cases hq with
    | @cons _ _ ms q h1 h2 =>
    obtain ⟨b, c, rfl, hb, hc⟩ := hsh
    -- the head `x` with packet `m` in front of `y`
    have take : ∀ (x : Node) (y : List Node) (m : Bytes) (t q' : List Bytes), Holds x (m :: t) → Q y q' →
        (m :: t) ++ q' = ms ++ q → (x :: y).length = s.rnums → 
        (∃ b c, y = b ++ c ∧ (∀ n ∈ b, n.rpos < n.data.length) ∧ ∀ n ∈ c, n.data = [] ∧ n.rpos = 0) →
        ∃ m' qr' s', ms ++ q = m' :: qr' ∧ popHead s x y = some (s', some m') ∧ Inv s' qr' qw ∧ s'.r ≠ [] := by
      intro x y m t q' hx hy he hlen hs
      have hwt : m.length + 4 ≤ s.rsize := by
        rw [hz, ← he]
        simp [weight]
      obtain ⟨e1, e2⟩ := popHead_msg (s := s) (rest := y) hx hwt
      refine ⟨m, t ++ q', _, by rw [← he]; rfl, e1, ⟨wirrel _ _, .cons e2 hy, hwq, ?_, ?_, ?_⟩, by simp⟩
      · rw [← hlen]; simp
      · simp only [hz, ← he, weight]
        simp
      · exact hs
    unfold Nq.pop
    rw [hrr]
    simp only
    by_cases hx : nd.rpos ≥ nd.data.length
    · rw [if_pos hx]
      have hms := holds_nil h1 hx
      subst hms
      cases hbc : b ++ c with
      | nil =>
        rw [hbc] at h2
        cases h2
        simp only
        refine Or.inr ⟨rfl, _, rfl, ⟨wirrel _ _, ?_, hwq, ?_, by simpa using hz, ⟨[], [], by simp⟩⟩, by simp⟩
        · exact Q.empties (by simp [Node.clear])
        · rw [hbc] at hn; simpa using hn
      | cons x y =>
        rw [hbc] at h2
        cases h2 with
        | @cons _ _ ms' q' g1 g2 =>
        simp only
        have hy : Q (y ++ [nd.clear]) q' := by
          have := g2.append (Q.empties (l := [nd.clear]) (by simp [Node.clear]))
          simpa using this
        have hsh' : ∃ b c, y ++ [nd.clear] = b ++ c ∧ (∀ n ∈ b, n.rpos < n.data.length) ∧
            ∀ n ∈ c, n.data = [] ∧ n.rpos = 0 := by
          cases b with
          | nil =>
            simp only [List.nil_append] at hbc
            refine ⟨[], y ++ [nd.clear], rfl, by simp, ?_⟩
            intro n hn
            rcases List.mem_append.1 hn with hn | hn
            · exact hc n (by simp [hbc, hn])
            · rw [List.mem_singleton.1 hn]; exact ⟨rfl, rfl⟩
          | cons b0 b =>
            simp only [List.cons_append, List.cons.injEq] at hbc
            refine ⟨b, c ++ [nd.clear], by simp [← hbc.2], fun n hn => hb n (by simp [hn]), ?_⟩
            intro n hn
            rcases List.mem_append.1 hn with hn | hn
            · exact hc n hn
            · rw [List.mem_singleton.1 hn]; exact ⟨rfl, rfl⟩
        have hlen : (x :: (y ++ [nd.clear])).length = s.rnums := by
          rw [hbc] at hn; rw [hn]; simp
        cases ms' with
        | cons m t => exact Or.inl (take x _ m t q' g1 hy rfl hlen hsh')
        | nil =>
          right
          -- the new head has nothing: so has nobody
          have hxe : ¬ x.rpos < x.data.length := by
            have := congrArg List.length g1.2.1
            simp at this
            omega
          have hb0 : b = [] := by
            cases b with
            | nil => rfl
            | cons b0 b =>
              simp only [List.cons_append, List.cons.injEq] at hbc
              exact absurd (hbc.1 ▸ hb b0 (by simp)) hxe
          subst hb0
          simp only [List.nil_append] at hbc
          have hq' : q' = [] := g2.empty fun n hn => by
            have := hc n (by simp [hbc, hn]); simp [this]
          subst hq'
          refine ⟨rfl, { s with r := x :: (y ++ [nd.clear]) }, by rw [popHead, if_neg hxe], ⟨?_, ?_, hwq, ?_, hz, hsh'⟩,
            by simp⟩
          · obtain ⟨a1, a2, a3, a4, a5, a6, a7, a8⟩ := hw
            exact ⟨a1, a2, a3, a4, a5, a6, a7, a8⟩
          · exact .cons g1 hy
          · exact hlen.symm
    · rw [if_neg hx]
      have : ms ≠ [] := by
        rintro rfl
        have := congrArg List.length h1.2.1
        simp at this
        omega
      cases ms with
      | nil => exact absurd rfl this
      | cons m t => exact Or.inl (take nd _ m t q h1 h2 rfl hn.symm ⟨b, c, rfl, hb, hc⟩)

end Sis.Nq
