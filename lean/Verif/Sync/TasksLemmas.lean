import Verif.Sync.TasksSpec
import Mathlib.Data.List.Induction
/-
Lemmas about the list of tasks with a thread of its own.
-/
namespace Sis.Wt

def nxt (m n k : Nat) : Option Nat := if k + 1 = m ∨ k + 1 = n then none else some (k + 1)

def PcOk (n d m : Nat) (s : W) : Prop := match s.pc with
  | .top | .read | .asleep => d = m ∧ s.rnums = 0 ∧ s.rhead = none
  | .swap => d = m ∧ s.rnums = (n : Int) - m ∧ s.held = true
  | .node none => d = m ∧ s.rnums = 0
  | .node (some a) => a = d ∧ d < m ∧ s.rnums = (m : Int) - d
  | .busy a nx => a = d ∧ d < m ∧ s.rnums = (m : Int) - d ∧ nx = nxt m n d
  | .stopped => False

structure Inv (A : List Nat) (d m : Nat) (s : W) : Prop where
  ready : s.ready = true
  dst : s.dst = .none
  status : s.status = .work
  dm : d ≤ m
  mn : m ≤ A.length
  len : s.heap.length = A.length
  heap : ∀ k (h : k < A.length), d ≤ k → load s.heap k = some ⟨A[k], nxt m A.length k⟩
  wnums : s.wnums = (A.length : Int) - m
  whead : s.whead = if m < A.length then some m else none
  wtail : s.wtail = if m < A.length then some (A.length - 1) else none
  held : s.held = true → s.pc = .swap
  pc : PcOk A.length d m s
  low : ∀ k, k < d → load s.heap k = none

def bz : Pc → Nat
  | .busy _ _ => 1
  | _ => 0

theorem inv_create : Inv [] 0 0 { create with ready := true } := by
  refine ⟨rfl, rfl, rfl, Nat.le_refl _, Nat.le_refl _, rfl, ?_, rfl, rfl, rfl, ?_, ?_, ?_⟩
  · intro k h; simp at h
  · exact nofun
  · exact ⟨rfl, rfl, rfl⟩
  · intro k h; omega

theorem lockOk_inv {A : List Nat} {d m : Nat} {s : W} (v : Inv A d m s) : lockOk s = true := by
  simp [lockOk, v.ready, v.dst]

theorem load_append {h : List (Option Node)} {k : Nat} (x : Option Node) (hk : k < h.length) : load (h ++ [x]) k = load h k := by
  simp [load, List.getElem?_append_left hk]

theorem load_set {h : List (Option Node)} {k j : Nat} (x : Option Node) (hk : k < h.length) :
    load (h.set k x) j = if k = j then x else load h j := by
  simp only [load, List.getElem?_set]
  split
  · next e => subst e; simp [hk]
  · rfl

theorem pcOk_grow {n d m : Nat} {s s' : W} (hp : s'.pc = s.pc) (hr : s'.rnums = s.rnums)
    (hh : s'.rhead = s.rhead) (hs : s.pc ≠ .swap) (hmn : m ≤ n) (v : PcOk n d m s) : PcOk (n + 1) d m s' := by
  unfold PcOk at *
  rw [hp, hr, hh]
  cases hpc : s.pc with
  | swap => exact absurd hpc hs
  | busy a nx =>
    rw [hpc] at v
    obtain ⟨h1, h2, h3, h4⟩ := v
    refine ⟨h1, h2, h3, ?_⟩
    rw [h4]
    unfold nxt
    by_cases e : d + 1 = m
    · simp [e]
    · rw [if_neg (by omega), if_neg (by omega)]
  | node x =>
    rw [hpc] at v
    cases x <;> exact v
  | top => rw [hpc] at v; exact v
  | read => rw [hpc] at v; exact v
  | asleep => rw [hpc] at v; exact v
  | stopped => rw [hpc] at v; exact v

theorem add_inv {A : List Nat} {d m : Nat} {s : W} (v : Inv A d m s) (hh : s.held = false) (hs : s.pc ≠ .swap) (x : Nat) :
    ∃ s', add s x = some s' ∧ Inv (A ++ [x]) d m s' ∧ s'.pc = s.pc ∧ s'.waits = s.waits := by
  have hd := v.dm
  have hm := v.mn
  have hl := v.len
  have hn : (A ++ [x]).length = A.length + 1 := by simp
  unfold add
  rw [lockOk_inv v]
  simp only [Bool.not_true, Bool.false_eq_true, if_false]
  by_cases hlt : m < A.length
  · have h1 : s.whead = some m := by rw [v.whead, if_pos hlt]
    have h2 : s.wtail = some (A.length - 1) := by rw [v.wtail, if_pos hlt]
    have hx := v.heap (A.length - 1) (by omega) (by omega)
    have hx' : load (s.heap ++ [some ⟨x, none⟩]) (A.length - 1) = some ⟨A[A.length - 1], nxt m A.length (A.length - 1)⟩ := by
      rw [load_append _ (by omega)]; exact hx
    have key : ∀ t : Nat, t = A.length - 1 → ∃ s', ((load (s.heap ++ [some ⟨x, none⟩]) t).map fun n =>
        ({ s with wnums := s.wnums + 1, heap := (s.heap ++ [some (⟨x, none⟩ : Node)]).set t (some { n with next := some s.heap.length }),
                  whead := some m, wtail := some s.heap.length } : W)) = some s' ∧ Inv (A ++ [x]) d m s' ∧ s'.pc = s.pc ∧ s'.waits = s.waits := by
      intro t ht
      subst ht
      rw [hx']
      refine ⟨_, rfl, ⟨v.ready, v.dst, v.status, hd, by omega, by simp [hl], ?_, ?_, ?_, ?_, v.held, ?_, ?_⟩, rfl, rfl⟩
      · intro k hk hdk
        show load ((s.heap ++ [some (⟨x, none⟩ : Node)]).set _ _) k = _
        rw [load_set _ (by simp; omega)]
        by_cases e : A.length - 1 = k
        · rw [if_pos e]
          subst e
          rw [List.getElem_append_left (by omega)]
          have : nxt m (A ++ [x]).length (A.length - 1) = some s.heap.length := by
            unfold nxt
            rw [if_neg (by rw [hn]; omega), hl]
            congr 1; omega
          rw [this]
        · rw [if_neg e]
          by_cases ek : k < A.length
          · rw [load_append _ (by omega), v.heap k ek hdk, List.getElem_append_left ek]
            have : nxt m (A ++ [x]).length k = nxt m A.length k := by
              unfold nxt
              rw [hn]
              by_cases e1 : k + 1 = m
              · simp [e1]
              · rw [if_neg (by omega), if_neg (by omega)]
            rw [this]
          · have ek' : k = A.length := by omega
            subst ek'
            have : nxt m (A ++ [x]).length A.length = none := by
              unfold nxt; rw [if_pos (by omega)]
            rw [this]
            simp [load, ← hl]
      · show s.wnums + 1 = _
        rw [v.wnums, hn]; omega
      · show some m = _
        rw [if_pos (by omega)]
      · show some s.heap.length = _
        rw [if_pos (by omega), hn, hl]; simp
      · rw [hn]
        exact pcOk_grow rfl rfl rfl hs hm v.pc
      · intro k hk
        show load ((s.heap ++ [some (⟨x, none⟩ : Node)]).set _ _) k = _
        rw [load_set _ (by simp; omega), if_neg (by omega), load_append _ (by omega), v.low k hk]
    rw [h1, h2]
    simp only
    by_cases e : m = A.length - 1
    · rw [if_pos (by rw [e])]
      exact key m e
    · rw [if_neg (by intro hc; cases hc; exact e rfl)]
      exact key _ rfl
  · have h1 : s.whead = none := by rw [v.whead, if_neg hlt]
    rw [h1]
    refine ⟨_, rfl, ⟨v.ready, v.dst, v.status, hd, by omega, by simp [hl], ?_, ?_, ?_, ?_, v.held, ?_, ?_⟩, rfl, rfl⟩
    · intro k hk hdk
      show load (s.heap ++ [some (⟨x, none⟩ : Node)]) k = _
      by_cases ek : k < A.length
      · rw [load_append _ (by omega), v.heap k ek hdk, List.getElem_append_left ek]
        have : nxt m (A ++ [x]).length k = nxt m A.length k := by
          unfold nxt
          rw [hn]
          by_cases e1 : k + 1 = m
          · simp [e1]
          · rw [if_neg (by omega), if_neg (by omega)]
        rw [this]
      · have ek' : k = A.length := by omega
        subst ek'
        have : nxt m (A ++ [x]).length A.length = none := by
          unfold nxt; rw [if_pos (by omega)]
        rw [this]
        simp [load, ← hl]
    · show s.wnums + 1 = _
      rw [v.wnums, hn]; omega
    · show some s.heap.length = _
      rw [if_pos (by omega), hl]; congr 1; omega
    · show some s.heap.length = _
      rw [if_pos (by omega), hn, hl]; simp
    · rw [hn]
      exact pcOk_grow rfl rfl rfl hs hm v.pc
    · intro k hk
      show load (s.heap ++ [some (⟨x, none⟩ : Node)]) k = _
      rw [load_append _ (by omega), v.low k hk]

theorem take_succ' {A : List Nat} {d : Nat} (h : d < A.length) : A.take (d + 1) = A.take d ++ [A[d]] := by
  rw [List.take_add_one, List.getElem?_eq_getElem h]; rfl

/-- How far the thread is from having run everything. -/
def rank : Pc → Nat
  | .busy _ _ => 0
  | .node (some _) => 1
  | .swap => 2
  | .read => 3
  | .top => 4
  | .node none => 4
  | .asleep => 5
  | .stopped => 0

theorem work_inv {A : List Nat} {d m : Nat} {s : W} (v : Inv A d m s) : ∃ s' o d' m', work s = some (s', o) ∧
    Inv A d' m' s' ∧ m ≤ m' ∧ d ≤ d' ∧ A.take d' = A.take d ++ ends o ∧
    A.take (d' + bz s'.pc) = A.take (d + bz s.pc) ++ begins o ∧ s'.waits = s.waits ∧ (∀ i, o ≠ .returned i) ∧
    (d < A.length → 8 * (A.length - d') + rank s'.pc < 8 * (A.length - d) + rank s.pc) := by
  have hd := v.dm
  have hm := v.mn
  have hl := v.len
  have hp := v.pc
  have hdst : ¬ s.dst = .gone := by rw [v.dst]; exact nofun
  unfold work
  rw [if_neg hdst]
  unfold PcOk at hp
  cases hpc : s.pc with
  | top =>
    rw [hpc] at hp
    simp only [v.status]
    refine ⟨_, _, d, m, rfl, ⟨v.ready, v.dst, rfl, hd, hm, hl, v.heap, v.wnums, v.whead, v.wtail, ?_, hp, v.low⟩,
      Nat.le_refl _, Nat.le_refl _, by simp [ends], by simp [begins, bz], rfl, nofun, ?_⟩
    · intro hc; have := v.held hc; rw [hpc] at this; cases this
    · intro _; show _ + rank .read < _ + rank .top; simp only [rank]; omega
  | read =>
    rw [hpc] at hp
    obtain ⟨h1, h2, h3⟩ := hp
    simp only
    rw [if_neg (by omega), lockOk_inv v]
    simp only [Bool.not_true, Bool.false_eq_true, if_false]
    refine ⟨_, _, d, m, rfl, ⟨v.ready, v.dst, v.status, hd, hm, hl, v.heap, v.wnums, v.whead, v.wtail, fun _ => rfl,
      ⟨h1, v.wnums, rfl⟩, v.low⟩, Nat.le_refl _, Nat.le_refl _, by simp [ends], by simp [begins, bz], rfl, nofun, ?_⟩
    · intro _; show _ + rank .swap < _ + rank .read; simp only [rank]; omega
  | swap =>
    rw [hpc] at hp
    obtain ⟨h1, h2, -⟩ := hp
    simp only
    have hheap : ∀ k (h : k < A.length), d ≤ k → load s.heap k = some ⟨A[k], nxt A.length A.length k⟩ := by
      intro k h hk
      rw [v.heap k h hk]
      unfold nxt
      congr 2
      by_cases e : k + 1 = A.length
      · rw [if_pos (.inr e), if_pos (.inr e)]
      · rw [if_neg (by omega), if_neg (by omega)]
    by_cases e : m < A.length
    · rw [if_pos (by omega)]
      refine ⟨_, _, d, A.length, rfl, ⟨v.ready, v.dst, v.status, by omega, by omega, hl, hheap, ?_, ?_, ?_, nofun, ?_, v.low⟩,
        hm, Nat.le_refl _, by simp [ends], ?_, rfl, nofun, ?_⟩
      · show (0 : Int) = _; omega
      · rw [if_neg (by omega)]
      · rw [if_neg (by omega)]
      · unfold PcOk
        simp only [v.whead, if_pos e]
        refine ⟨h1.symm, by omega, ?_⟩
        show s.rnums = _
        omega
      · simp [bz, begins]
      · intro _
        simp only [v.whead, if_pos e, rank]; omega
    · rw [if_neg (by omega)]
      refine ⟨_, _, d, A.length, rfl, ⟨v.ready, v.dst, v.status, by omega, by omega, hl, hheap, ?_, ?_, ?_, nofun, ?_, v.low⟩,
        hm, Nat.le_refl _, by simp [ends], ?_, rfl, nofun, ?_⟩
      · show (0 : Int) = _; omega
      · rw [if_neg (by omega)]
      · rw [if_neg (by omega)]
      · unfold PcOk
        simp only
        refine ⟨by omega, ?_, ?_⟩
        · show s.rnums = _; omega
        · show s.whead = _; rw [v.whead, if_neg e]
      · simp [bz, begins]
      · intro hc; omega
  | node x =>
    rw [hpc] at hp
    cases x with
    | none =>
      obtain ⟨h1, h2⟩ := hp
      simp only
      refine ⟨_, _, d, m, rfl, ⟨v.ready, v.dst, v.status, hd, hm, hl, v.heap, v.wnums, v.whead, v.wtail, ?_,
        ⟨h1, rfl, rfl⟩, v.low⟩, Nat.le_refl _, Nat.le_refl _, by simp [ends], by simp [begins, bz], rfl, nofun, ?_⟩
      · intro hc; have := v.held hc; rw [hpc] at this; cases this
      · intro _; show _ + rank .read < _ + rank (.node none); simp only [rank]; omega
    | some a =>
      obtain ⟨h1, h2, h3⟩ := hp
      subst h1
      simp only
      rw [v.heap a (by omega) (Nat.le_refl _)]
      refine ⟨_, _, a, m, rfl, ⟨v.ready, v.dst, v.status, hd, hm, hl, v.heap, v.wnums, v.whead, v.wtail, ?_,
        ⟨rfl, h2, h3, rfl⟩, v.low⟩, Nat.le_refl _, Nat.le_refl _, by simp [ends], ?_, rfl, nofun, ?_⟩
      · intro hc; have := v.held hc; rw [hpc] at this; cases this
      · simp only [begins, bz]
        exact take_succ' (by omega)
      · intro _; show _ + rank (.busy _ _) < _ + rank (.node (some _)); simp only [rank]; omega
  | busy a nx =>
    rw [hpc] at hp
    obtain ⟨h1, h2, h3, h4⟩ := hp
    subst h1
    simp only
    rw [v.heap a (by omega) (Nat.le_refl _)]
    refine ⟨_, _, a + 1, m, rfl, ⟨v.ready, v.dst, v.status, h2, hm, by simp [hl], ?_, v.wnums, v.whead, v.wtail, ?_, ?_, ?_⟩,
      Nat.le_refl _, by omega, ?_, ?_, rfl, nofun, ?_⟩
    · intro k hk hk2
      show load (s.heap.set a none) k = _
      rw [load_set _ (by omega), if_neg (by omega)]
      exact v.heap k hk (by omega)
    · intro hc; have := v.held hc; rw [hpc] at this; cases this
    · unfold PcOk
      subst h4
      unfold nxt
      simp only
      by_cases e : a + 1 = m
      · rw [if_pos (.inl e)]
        refine ⟨e, ?_⟩
        show s.rnums - 1 = 0
        omega
      · rw [if_neg (by omega)]
        refine ⟨rfl, by omega, ?_⟩
        show s.rnums - 1 = _
        omega
    · intro k hk
      show load (s.heap.set a none) k = _
      rw [load_set _ (by omega)]
      split
      · rfl
      · exact v.low k (by omega)
    · simp only [ends]
      exact take_succ' (by omega)
    · simp only [begins, bz]; simp
    · intro _
      show _ + rank (.node nx) < _ + rank (.busy _ _)
      have : rank (.node nx) ≤ 4 := by cases nx <;> simp [rank]
      simp only [rank] at this ⊢; omega
  | asleep =>
    rw [hpc] at hp
    simp only
    refine ⟨_, _, d, m, rfl, ⟨v.ready, v.dst, v.status, hd, hm, hl, v.heap, v.wnums, v.whead, v.wtail, ?_, hp, v.low⟩,
      Nat.le_refl _, Nat.le_refl _, by simp [ends], by simp [begins, bz], rfl, nofun, ?_⟩
    · intro hc; have := v.held hc; rw [hpc] at this; cases this
    · intro _; show _ + rank .top < _ + rank .asleep; simp only [rank]; omega
  | stopped =>
    rw [hpc] at hp
    exact hp.elim

/-! ### Histories -/

/-- For each call of `sis_worker_tasks_wait` in order, how many tasks had been added before. -/
def calls (h : List (Ev × Out)) : List Nat := (h.foldl (fun (a : Nat × List Nat) x => match x.1 with
  | .add _ => (a.1 + 1, a.2)
  | .wait => (a.1, a.2 ++ [a.1])
  | _ => a) (0, [])).2

theorem calls_fst (h : List (Ev × Out)) : (h.foldl (fun (a : Nat × List Nat) x => match x.1 with
  | .add _ => (a.1 + 1, a.2)
  | .wait => (a.1, a.2 ++ [a.1])
  | _ => a) (0, [])).1 = (added h).length := by
  induction h using List.reverseRecOn with
  | nil => rfl
  | append_singleton l x ih =>
    rw [List.foldl_append]
    obtain ⟨e, o⟩ := x
    cases e <;> simp [added, adds] at ih ⊢ <;> exact ih

theorem calls_snoc (h : List (Ev × Out)) (e : Ev) (o : Out) : calls (h ++ [(e, o)]) = calls h ++ (if e = .wait then
    [(added h).length] else []) := by
  have := calls_fst h
  unfold calls at *
  rw [List.foldl_append]
  cases e <;> simp [this]

theorem added_snoc (h : List (Ev × Out)) (e : Ev) (o : Out) : added (h ++ [(e, o)]) = added h ++ adds e := by simp [added]
theorem began_snoc (h : List (Ev × Out)) (e : Ev) (o : Out) : began (h ++ [(e, o)]) = began h ++ begins o := by simp [began]
theorem ended_snoc (h : List (Ev × Out)) (e : Ev) (o : Out) : ended (h ++ [(e, o)]) = ended h ++ ends o := by simp [ended]

/-- What is known of a call of `sis_worker_tasks_wait` before which `c` tasks had been added. -/
def LookOk (rf : Bool) (c m d : Nat) : Look → Prop
  | .first => True
  | .second v => rf = false → 0 ≤ v ∧ (v = 0 → c ≤ m)
  | .done => rf = false → c ≤ d

structure Waits (rf : Bool) (cs : List Nat) (n m d : Nat) (ws : List Look) : Prop where
  len : ws.length = cs.length
  le : ∀ c ∈ cs, c ≤ n
  ok : ∀ (i c : Nat) (l : Look), cs[i]? = some c → ws[i]? = some l → LookOk rf c m d l

theorem waits_mono {rf : Bool} {cs : List Nat} {n m d n' m' d' : Nat} {ws : List Look} (v : Waits rf cs n m d ws)
    (hn : n ≤ n') (hm : m ≤ m') (hd : d ≤ d') : Waits rf cs n' m' d' ws := by
  refine ⟨v.len, fun c hc => Nat.le_trans (v.le c hc) hn, fun i c l h1 h2 => ?_⟩
  have := v.ok i c l h1 h2
  cases l with
  | first => trivial
  | second x => exact fun hr => ⟨(this hr).1, fun hx => Nat.le_trans ((this hr).2 hx) hm⟩
  | done => exact fun hr => Nat.le_trans (this hr) hd

theorem rnums_nonneg {A : List Nat} {d m : Nat} {s : W} (v : Inv A d m s) : 0 ≤ s.rnums ∧ (s.rnums = 0 → d = m) := by
  have hm := v.mn
  have hp := v.pc
  unfold PcOk at hp
  cases hpc : s.pc with
  | node x => rw [hpc] at hp; cases x <;> simp only at hp <;> omega
  | busy a nx => rw [hpc] at hp; simp only at hp; omega
  | swap => rw [hpc] at hp; simp only at hp; omega
  | top => rw [hpc] at hp; simp only at hp; omega
  | read => rw [hpc] at hp; simp only at hp; omega
  | asleep => rw [hpc] at hp; simp only at hp; omega
  | stopped => rw [hpc] at hp; exact hp.elim

theorem inv_waits {A : List Nat} {d m : Nat} {s : W} (v : Inv A d m s) (ws : List Look) : Inv A d m { s with waits := ws } :=
  ⟨v.ready, v.dst, v.status, v.dm, v.mn, v.len, v.heap, v.wnums, v.whead, v.wtail, v.held, v.pc, v.low⟩

/-- What holds after a history. -/
structure Ok (rf : Bool) (h : List (Ev × Out)) (s : W) (d m : Nat) : Prop where
  inv : Inv (added h) d m s
  ended : ended h = (added h).take d
  began : began h = (added h).take (d + bz s.pc)
  waits : Waits rf (calls h) (added h).length m d s.waits

theorem step_ok {rf : Bool} {h : List (Ev × Out)} {s : W} {d m : Nat} (v : Ok rf h s d m) (e : Ev) (he : enabled s e = true)
    (hd : e ≠ .destroy) (hr : e ≠ .ready) : ∃ s' o d' m', step rf s e = some (s', o) ∧ Ok rf (h ++ [(e, o)]) s' d' m' ∧
    (∀ i, o = .returned i → e = .look i ∧ s'.waits[i]? = some .done) := by
  obtain ⟨iv, ve, vb, vw⟩ := v
  cases e with
  | ready => exact absurd rfl hr
  | destroy => exact absurd rfl hd
  | add x =>
    simp only [enabled, Bool.and_eq_true, Bool.not_eq_true'] at he
    have hns : s.pc ≠ .swap := by
      intro hc
      have := iv.pc
      unfold PcOk at this
      rw [hc] at this
      have h0 := he.2
      rw [this.2.2] at h0
      cases h0
    obtain ⟨s', e1, i1, p1, w1⟩ := add_inv iv he.2 hns x
    have hle : (added h).length ≤ (added h ++ [x]).length := by simp
    have hdl : d + bz s.pc ≤ (added h).length := by
      have := iv.pc
      have h1 := iv.mn
      have h2 := iv.dm
      unfold PcOk at this
      cases hpc : s.pc with
      | busy a nx => rw [hpc] at this; simp only at this; simp only [bz]; omega
      | _ => simp only [bz]; omega
    refine ⟨s', .unit, d, m, by simp only [step, e1, Option.map_some], ⟨?_, ?_, ?_, ?_⟩, nofun⟩
    · rw [added_snoc]; exact i1
    · rw [added_snoc, ended_snoc, ve]
      simp only [ends, adds, List.append_nil]
      rw [List.take_append_of_le_length (Nat.le_trans iv.dm iv.mn)]
    · rw [added_snoc, began_snoc, vb, p1]
      simp only [begins, adds, List.append_nil]
      rw [List.take_append_of_le_length hdl]
    · rw [added_snoc, calls_snoc, w1]
      simp only [adds, reduceCtorEq, if_false, List.append_nil]
      exact waits_mono vw hle (Nat.le_refl _) (Nat.le_refl _)
  | wait =>
    have hdst : ¬ s.dst = .gone := by rw [iv.dst]; exact nofun
    refine ⟨_, .unit, d, m, by simp only [step, if_neg hdst]; rfl, ⟨?_, ?_, ?_, ?_⟩, nofun⟩
    · rw [added_snoc]; simp only [adds, List.append_nil]; exact inv_waits iv _
    · rw [added_snoc, ended_snoc, ve]; simp only [ends, adds, List.append_nil]
    · rw [added_snoc, began_snoc, vb]; simp only [begins, adds, List.append_nil]
    · rw [added_snoc, calls_snoc]
      simp only [adds, if_true, List.append_nil]
      refine ⟨by simp [vw.len], ?_, ?_⟩
      · intro c hc
        rcases List.mem_append.1 hc with hc | hc
        · exact vw.le c hc
        · simp at hc; omega
      · intro i c l h1 h2
        by_cases hi : i < (calls h).length
        · rw [List.getElem?_append_left hi] at h1
          rw [List.getElem?_append_left (by rw [vw.len]; exact hi)] at h2
          exact vw.ok i c l h1 h2
        · rw [List.getElem?_append_right (by rw [vw.len]; omega)] at h2
          have : l = .first := by
            rcases hk : i - s.waits.length with _ | k
            · rw [hk] at h2; simpa using h2.symm
            · rw [hk] at h2; simp at h2
          subst this
          trivial
  | look i =>
    have hdst : ¬ s.dst = .gone := by rw [iv.dst]; exact nofun
    simp only [step, if_neg hdst]
    simp only [enabled] at he
    cases hl : s.waits[i]? with
    | none => rw [hl] at he; cases he
    | some l =>
      have hi : i < s.waits.length := (List.getElem?_eq_some_iff.1 hl).1
      refine ⟨_, _, d, m, rfl, ⟨?_, ?_, ?_, ?_⟩, ?_⟩
      · rw [added_snoc]; simp only [adds, List.append_nil]; exact inv_waits iv _
      · rw [added_snoc, ended_snoc, ve]
        split <;> simp only [ends, adds, List.append_nil]
      · rw [added_snoc, began_snoc, vb]
        split <;> simp only [begins, adds, List.append_nil]
      · rw [added_snoc, calls_snoc]
        simp only [adds, reduceCtorEq, if_false, List.append_nil]
        refine ⟨by simp [vw.len], vw.le, ?_⟩
        intro j c l' h1 h2
        rw [List.getElem?_set] at h2
        by_cases e : i = j
        · subst e
          rw [if_pos rfl, if_pos hi] at h2
          have h2 : look rf s l = l' := by simpa using h2
          have h0 := vw.ok i c l h1 hl
          have hc : c ≤ (added h).length := vw.le c (List.mem_of_getElem? h1)
          subst h2
          cases l with
          | first =>
            simp only [look]
            intro hrf
            subst hrf
            simp only [Bool.false_eq_true, if_false]
            have h3 := iv.wnums
            have h4 := iv.mn
            constructor
            · omega
            · intro hz; omega
          | second v =>
            simp only [look]
            by_cases hlt : v + (if rf then s.wnums else s.rnums) < 1
            · rw [if_pos hlt]
              intro hrf
              subst hrf
              simp only [Bool.false_eq_true, if_false] at hlt
              have h3 := h0 rfl
              have h4 := rnums_nonneg iv
              have hv : v = 0 := by omega
              have hz : s.rnums = 0 := by omega
              have := h3.2 hv
              have := h4.2 hz
              omega
            · rw [if_neg hlt]; trivial
          | done => exact h0
        · rw [if_neg e] at h2
          exact vw.ok j c l' h1 h2
      · intro j hj
        split at hj
        · next hr =>
          cases hj
          exact ⟨rfl, by simp [hi, hr]⟩
        · cases hj
  | work =>
    obtain ⟨s', o, d', m', e1, i1, hm, hd', e2, e3, w1, nr, -⟩ := work_inv iv
    refine ⟨s', o, d', m', e1, ⟨?_, ?_, ?_, ?_⟩, fun i hi => absurd hi (nr i)⟩
    · rw [added_snoc]; simp only [adds, List.append_nil]; exact i1
    · rw [added_snoc, ended_snoc, ve]; simp only [adds, List.append_nil]; exact e2.symm
    · rw [added_snoc, began_snoc, vb]; simp only [adds, List.append_nil]; exact e3.symm
    · rw [added_snoc, calls_snoc, w1]
      simp only [adds, reduceCtorEq, if_false, List.append_nil]
      exact waits_mono vw (Nat.le_refl _) hm hd'
  | miss =>
    simp only [enabled, Bool.and_eq_true, beq_iff_eq] at he
    have hp := iv.pc
    unfold PcOk at hp
    rw [he.1] at hp
    refine ⟨_, .unit, d, m, by simp only [step, lockOk_inv iv, if_true]; rfl, ⟨?_, ?_, ?_, ?_⟩, nofun⟩
    · rw [added_snoc]; simp only [adds, List.append_nil]
      refine ⟨iv.ready, iv.dst, iv.status, iv.dm, iv.mn, iv.len, iv.heap, iv.wnums, iv.whead, iv.wtail, ?_, hp, iv.low⟩
      intro hc; have := iv.held hc; rw [he.1] at this; cases this
    · rw [added_snoc, ended_snoc, ve]; simp only [ends, adds, List.append_nil]
    · rw [added_snoc, began_snoc, vb, he.1]; simp only [begins, adds, List.append_nil, bz]
    · rw [added_snoc, calls_snoc]
      simp only [adds, reduceCtorEq, if_false, List.append_nil]
      exact vw

theorem hist_ok {rf : Bool} {h : List (Ev × Out)} {s : W} (H : Hist rf h s) : Plain h → (h = [] ∧ s = create) ∨
    ∃ d m, Ok rf h s d m := by
  induction H with
  | nil => exact fun _ => .inl ⟨rfl, rfl⟩
  | @snoc h s s' e o H he hs ih =>
    intro hp
    have hp' : Plain h := by
      refine ⟨fun x h' hx => hp.1 x (h' ++ [(e, o)]) (by rw [hx]; rfl), fun x hx => hp.2 x (List.mem_append_left _ hx)⟩
    right
    rcases ih hp' with ⟨rfl, rfl⟩ | ⟨d, m, v⟩
    · have := hp.1 (e, o) [] rfl
      simp only at this
      subst this
      cases hs
      exact ⟨0, 0, ⟨inv_create, rfl, rfl, ⟨rfl, nofun, nofun⟩⟩⟩
    · have hr : e ≠ .ready := by
        rintro rfl
        simp only [enabled, v.inv.ready] at he
        cases he
      obtain ⟨s1, o1, d1, m1, e1, v1, -⟩ := step_ok v e he (hp.2 _ (List.mem_append_right _ (List.mem_singleton.2 rfl))) hr
      rw [e1] at hs
      cases hs
      exact ⟨d1, m1, v1⟩

end Sis.Wt
