import Verif.Sync.RwMutex
/-
C75: the lock for several readers or one writer.  C76: wait handles.
-/
namespace Sis.Rw

/-! ### Specification -/

/-- How many have the lock to read: attempts that succeeded, less the returns. -/
def readers (h : List (Ev × Bool)) : Int :=
  (h.countP fun x => (x.1 == .lockR || x.1 == .tryR) && x.2 : Nat) - (h.countP fun x => x.1 == .unlockR : Nat)

/-- How many have the lock to write. -/
def writers (h : List (Ev × Bool)) : Int :=
  (h.countP fun x => (x.1 == .lockW || x.1 == .tryW) && x.2 : Nat) - (h.countP fun x => x.1 == .unlockW : Nat)

/-- Every order of the calls of all threads; a thread returns a lock only when it has it. -/
inductive Hist : List (Ev × Bool) → M → Prop
  | nil : Hist [] create
  | snoc {h m e m' o} : Hist h m → (e = .unlockR → 0 < readers h) → (e = .unlockW → 0 < writers h) →
      step m e = some (m', o) → Hist (h ++ [(e, o)]) m'

/-- Since the last time the lock was got to write, nobody failed to get it to write. -/
def noneWaits (h : List (Ev × Bool)) : Prop :=
  ∃ g k, h = g ++ k ∧ (g = [] ∨ ∃ g' e, (e = .lockW ∨ e = .tryW) ∧ g = g' ++ [(e, true)]) ∧
      ∀ x ∈ k, x.1 ≠ .lockW ∧ x.1 ≠ .tryW

/-! ### The invariant -/

private structure Inv (h : List (Ev × Bool)) (m : M) : Prop where
  r : m.reads = readers h
  w : m.writes = writers h
  r0 : 0 ≤ m.reads
  w0 : 0 ≤ m.writes
  w1 : m.writes ≤ 1
  ex : m.writes = 1 → m.reads = 0

private theorem readers_snoc (h : List (Ev × Bool)) (e : Ev) (o : Bool) : readers (h ++ [(e, o)]) =
    readers h + (if (e = .lockR ∨ e = .tryR) ∧ o = true then 1 else 0) - (if e = .unlockR then 1 else 0) := by
  simp only [readers, List.countP_append, List.countP_singleton]
  cases e <;> cases o <;> simp <;> omega

private theorem writers_snoc (h : List (Ev × Bool)) (e : Ev) (o : Bool) : writers (h ++ [(e, o)]) =
    writers h + (if (e = .lockW ∨ e = .tryW) ∧ o = true then 1 else 0) - (if e = .unlockW then 1 else 0) := by
  simp only [writers, List.countP_append, List.countP_singleton]
  cases e <;> cases o <;> simp <;> omega

private theorem inv_step {h : List (Ev × Bool)} {m : M} (v : Inv h m) {e : Ev} (h1 : e = .unlockR → 0 < readers h)
    (h2 : e = .unlockW → 0 < writers h) : ∃ m' o, step m e = some (m', o) ∧ Inv (h ++ [(e, o)]) m' := by
  obtain ⟨hr, hw, r0, w0, w1, ex⟩ := v
  have rd : ∀ e, (e = .lockR ∨ e = .tryR) → step m e = readAttempt m → ∃ m' o, step m e = some (m', o) ∧ Inv (h ++ [(e, o)]) m' := by
    intro e he hs
    by_cases hc : (m.tryW || m.writes > 0) = true
    · refine ⟨m, false, by rw [hs, readAttempt, if_pos hc], ⟨?_, ?_, r0, w0, w1, ex⟩⟩
      · rw [readers_snoc]; rcases he with rfl | rfl <;> simpa using hr
      · rw [writers_snoc]; rcases he with rfl | rfl <;> simpa using hw
    · refine ⟨{ m with reads := m.reads + 1 }, true, by rw [hs, readAttempt, if_neg hc, if_pos r0], ⟨?_, ?_, ?_, w0, w1, ?_⟩⟩
      · rw [readers_snoc]; rcases he with rfl | rfl <;> simpa using hr
      · rw [writers_snoc]; rcases he with rfl | rfl <;> simpa using hw
      · show 0 ≤ m.reads + 1; omega
      · intro h3
        simp only [Bool.or_eq_true, decide_eq_true_eq, not_or] at hc
        have : m.writes = 1 := h3
        omega
  have wr : ∀ e, (e = .lockW ∨ e = .tryW) → step m e = writeAttempt m → ∃ m' o, step m e = some (m', o) ∧ Inv (h ++ [(e, o)]) m' := by
    intro e he hs
    by_cases hc : (m.reads > 0 || m.writes > 0) = true
    · refine ⟨{ m with tryW := true }, false, by rw [hs, writeAttempt, if_pos hc], ⟨?_, ?_, r0, w0, w1, ex⟩⟩
      · rw [readers_snoc]; rcases he with rfl | rfl <;> simpa using hr
      · rw [writers_snoc]; rcases he with rfl | rfl <;> simpa using hw
    · simp only [Bool.or_eq_true, decide_eq_true_eq, not_or] at hc
      have hc' : ¬ (m.reads > 0 || m.writes > 0) = true := by simp only [Bool.or_eq_true, decide_eq_true_eq, not_or]; exact hc
      refine ⟨⟨false, m.reads, m.writes + 1⟩, true, by rw [hs, writeAttempt, if_neg hc', if_pos w0], ⟨?_, ?_, r0, ?_, ?_, ?_⟩⟩
      · rw [readers_snoc]; rcases he with rfl | rfl <;> simpa using hr
      · rw [writers_snoc]; rcases he with rfl | rfl <;> simpa using hw
      · show 0 ≤ m.writes + 1; omega
      · show m.writes + 1 ≤ 1; omega
      · intro _; show m.reads = 0; omega
  cases e with
  | lockR => exact rd _ (.inl rfl) rfl
  | tryR => exact rd _ (.inr rfl) rfl
  | lockW => exact wr _ (.inl rfl) rfl
  | tryW => exact wr _ (.inr rfl) rfl
  | unlockR =>
    have := h1 rfl
    refine ⟨{ m with reads := m.reads - 1 }, true, by rw [step, if_pos (by omega)], ⟨?_, ?_, ?_, w0, w1, ?_⟩⟩
    · rw [readers_snoc, ← hr]; simp
    · rw [writers_snoc]; simpa using hw
    · show 0 ≤ m.reads - 1; omega
    · intro h3; have := ex h3; omega
  | unlockW =>
    have := h2 rfl
    refine ⟨{ m with writes := m.writes - 1 }, true, by rw [step, if_pos (by omega)], ⟨?_, ?_, r0, ?_, ?_, ?_⟩⟩
    · rw [readers_snoc]; simpa using hr
    · rw [writers_snoc, ← hw]; simp
    · show 0 ≤ m.writes - 1; omega
    · show m.writes - 1 ≤ 1; omega
    · intro h3; have : m.writes - 1 = 1 := h3; omega

private theorem inv_hist {h : List (Ev × Bool)} {m : M} (H : Hist h m) : Inv h m := by
  induction H with
  | nil => exact ⟨rfl, rfl, by decide, by decide, by decide, fun h => by cases h⟩
  | snoc H h1 h2 hs ih =>
    obtain ⟨m1, o1, e1, v1⟩ := inv_step ih h1 h2
    rw [e1] at hs
    cases hs
    exact v1

/-! ### C75 -/

/-- C75: at every time one thread at most has the lock to write, and then nobody has it to read; and no assertion
fails. -/
theorem C75_exclusive {h : List (Ev × Bool)} {m : M} (H : Hist h m) : writers h ≤ 1 ∧ (writers h = 1 → readers h = 0) ∧
    ∀ e, (e = .unlockR → 0 < readers h) → (e = .unlockW → 0 < writers h) → (step m e).isSome := by
  have v := inv_hist H
  refine ⟨by have := v.w1; have := v.w; omega, ?_, fun e h1 h2 => ?_⟩
  · intro h1
    have := v.w
    have := v.r
    have := v.ex (by omega)
    omega
  · obtain ⟨m1, o1, e1, -⟩ := inv_step v h1 h2
    rw [e1]; rfl

/-- C75: when nobody has the lock, a writer gets it. -/
theorem C75_writer_gets {h : List (Ev × Bool)} {m : M} (H : Hist h m) (hr : readers h = 0) (hw : writers h = 0) {e : Ev}
    (he : e = .lockW ∨ e = .tryW) : ∃ m', step m e = some (m', true) := by
  have v := inv_hist H
  have h1 := v.r
  have h2 := v.w
  refine ⟨⟨false, m.reads, m.writes + 1⟩, ?_⟩
  have hc : ¬ (m.reads > 0 || m.writes > 0) = true := by simp only [Bool.or_eq_true, decide_eq_true_eq, not_or]; omega
  rcases he with rfl | rfl <;> rw [step, writeAttempt, if_neg hc, if_pos v.w0]

private theorem try_false {h : List (Ev × Bool)} {m : M} (H : Hist h m) : ∀ {g k : List (Ev × Bool)}, h = g ++ k →
    (g = [] ∨ ∃ g' e, (e = .lockW ∨ e = .tryW) ∧ g = g' ++ [(e, true)]) → (∀ x ∈ k, x.1 ≠ .lockW ∧ x.1 ≠ .tryW) →
    m.tryW = false := by
  induction H with
  | nil => intro _ _ _ _ _; rfl
  | @snoc h m e m' o H h1 h2 hs ih =>
    intro g k hgk hg hk
    rcases List.eq_nil_or_concat k with rfl | ⟨k', x, rfl⟩
    · rw [List.append_nil] at hgk
      subst hgk
      rcases hg with hg | ⟨g', e', he', hg⟩
      · simp at hg
      · obtain ⟨-, hx⟩ := List.append_inj' hg rfl
        simp only [List.cons.injEq, Prod.mk.injEq, and_true] at hx
        obtain ⟨rfl, rfl⟩ := hx
        have : writeAttempt m = some (m', true) := by rcases he' with rfl | rfl <;> exact hs
        unfold writeAttempt at this
        split at this
        · cases this
        · split at this
          · cases this; rfl
          · cases this
    · rw [List.concat_eq_append, ← List.append_assoc] at hgk
      obtain ⟨h3, hx⟩ := List.append_inj' hgk rfl
      simp only [List.cons.injEq, and_true] at hx
      subst hx
      have h4 := ih h3 hg fun y hy => hk y (by simp [hy])
      obtain ⟨h5, h6⟩ := hk (e, o) (by simp)
      cases e with
      | lockW => exact absurd rfl h5
      | tryW => exact absurd rfl h6
      | lockR =>
        simp only [step, readAttempt] at hs
        split at hs
        · cases hs; exact h4
        · split at hs <;> cases hs; exact h4
      | tryR =>
        simp only [step, readAttempt] at hs
        split at hs
        · cases hs; exact h4
        · split at hs <;> cases hs; exact h4
      | unlockR =>
        simp only [step] at hs
        split at hs <;> cases hs; exact h4
      | unlockW =>
        simp only [step] at hs
        split at hs <;> cases hs; exact h4

/-- C75: when nobody has the lock to write and nobody waits to write, a reader gets it.  Missing: after a failed
`sis_mutex_rw_try_lock_w` nobody waits, see `C75_try_violated`. -/
theorem C75_reader_gets_partial {h : List (Ev × Bool)} {m : M} (H : Hist h m) (hw : writers h = 0) (hn : noneWaits h) {e : Ev}
    (he : e = .lockR ∨ e = .tryR) : ∃ m', step m e = some (m', true) := by
  have v := inv_hist H
  have ht : m.tryW = false := by
    obtain ⟨g, k, h1, h2, h3⟩ := hn
    exact try_false H h1 h2 h3
  have h2 := v.w
  refine ⟨{ m with reads := m.reads + 1 }, ?_⟩
  have hc : ¬ (m.tryW || m.writes > 0) = true := by simp only [ht, Bool.false_or, decide_eq_true_eq]; omega
  rcases he with rfl | rfl <;> rw [step, readAttempt, if_neg hc, if_pos v.r0]

/-- Two readers, a writer that has to wait, and a reader after it. -/
example : ∃ h m, Hist h m ∧ h = [(.lockR, true), (.lockR, true), (.lockW, false), (.tryR, false), (.unlockR, true), (.unlockR, true),
    (.lockW, true), (.unlockW, true)] ∧ readers h = 0 ∧ writers h = 0 ∧ noneWaits h := by
  refine ⟨_, _, .snoc (.snoc (.snoc (.snoc (.snoc (.snoc (.snoc (.snoc .nil (e := .lockR) nofun nofun rfl) (e := .lockR) nofun nofun rfl)
    (e := .lockW) nofun nofun rfl) (e := .tryR) nofun nofun rfl) (e := .unlockR) (fun _ => by decide) nofun rfl)
    (e := .unlockR) (fun _ => by decide) nofun rfl) (e := .lockW) nofun nofun rfl) (e := .unlockW) nofun (fun _ => by decide) rfl,
    rfl, by decide, by decide, ?_⟩
  exact ⟨[(.lockR, true), (.lockR, true), (.lockW, false), (.tryR, false), (.unlockR, true), (.unlockR, true), (.lockW, true)],
    [(.unlockW, true)], rfl, .inr ⟨[(.lockR, true), (.lockR, true), (.lockW, false), (.tryR, false), (.unlockR, true), (.unlockR, true)],
      .lockW, .inl rfl, rfl⟩, by decide⟩

/-- C75 fails: a writer that only tried, while a reader had the lock, has given up and the reader is gone; nobody has
the lock and nobody waits for it, but no reader gets it, however often it tries. -/
theorem C75_try_violated : ∃ h m, Hist h m ∧ h = [(.lockR, true), (.tryW, false), (.unlockR, true)] ∧ readers h = 0 ∧ writers h = 0 ∧
    step m .lockR = some (m, false) ∧ step m .tryR = some (m, false) :=
  ⟨_, _, .snoc (.snoc (.snoc .nil (e := .lockR) nofun nofun rfl) (e := .tryW) nofun nofun rfl) (e := .unlockR) (fun _ => by decide) nofun rfl,
    rfl, by decide, by decide, by decide, by decide⟩

end Sis.Rw

namespace Sis.Pool

/-! ### Specification -/

inductive Ev
  | malloc
  | free (i : Nat)
deriving DecidableEq, Repr

/-- The handles that were given out and not returned, the latest first. -/
def out : List (Ev × Option Nat) → List Nat
  | [] => []
  | (.malloc, some i) :: h => i :: out h
  | (.malloc, none) :: h => out h
  | (.free i, _) :: h => (out h).erase i

/-- Every sequence of calls, the latest first, none of them during another; a handle is returned only by who has it. -/
inductive Hist : List (Ev × Option Nat) → List Bool → Prop
  | nil : Hist [] create
  | malloc {h p} : Hist h p → Hist ((.malloc, (malloc p).2) :: h) (malloc p).1
  | free {h p i} : Hist h p → i ∈ out h → Hist ((.free i, none) :: h) (free p i)

private structure Inv (h : List (Ev × Option Nat)) (p : List Bool) : Prop where
  len : p.length = maxWait
  used : ∀ i, i ∈ out h ↔ p[i]? = some true
  nodup : (out h).Nodup

private theorem inv_hist {h : List (Ev × Option Nat)} {p : List Bool} (H : Hist h p) : Inv h p := by
  induction H with
  | nil =>
    refine ⟨by simp [create], fun i => ?_, List.nodup_nil⟩
    simp only [out, List.not_mem_nil, create, List.getElem?_replicate, false_iff]
    split <;> simp
  | @malloc h p H ih =>
    obtain ⟨hl, hu, hn⟩ := ih
    unfold malloc
    cases hf : find p with
    | none => exact ⟨hl, hu, hn⟩
    | some i =>
      have hf' := hf
      simp only [find, List.findIdx?_eq_some_iff_getElem] at hf'
      obtain ⟨hil, hi, -⟩ := hf'
      have hpi : p[i]? = some false := by rw [List.getElem?_eq_getElem hil]; simpa using hi
      refine ⟨by simp [mark, hl], fun j => ?_, ?_⟩
      · simp only [out, List.mem_cons, mark]
        rw [List.getElem?_set]
        by_cases hij : i = j
        · subst hij; simp [hil]
        · rw [if_neg hij, ← hu j]
          exact ⟨fun h => h.resolve_left (Ne.symm hij), .inr⟩
      · simp only [out, List.nodup_cons]
        exact ⟨fun h => (by rw [hu i, hpi] at h; cases h), hn⟩
  | @free h p i H hi ih =>
    obtain ⟨hl, hu, hn⟩ := ih
    refine ⟨by simp [free, hl], fun j => ?_, hn.erase i⟩
    simp only [out, free]
    rw [hn.mem_erase_iff, List.getElem?_set, hu j]
    by_cases hij : i = j
    · subst hij
      rw [if_pos rfl]
      split <;> simp
    · rw [if_neg hij]
      exact ⟨fun h => h.2, fun h => ⟨Ne.symm hij, h⟩⟩

/-- C76 (calls one at a time): the handles that are out are different from each other and below 65535. -/
theorem C76_distinct_partial {h : List (Ev × Option Nat)} {p : List Bool} (H : Hist h p) :
    (out h).Nodup ∧ ∀ i ∈ out h, i < 65535 := by
  have v := inv_hist H
  refine ⟨v.nodup, fun i hi => ?_⟩
  have := (List.getElem?_eq_some_iff.1 ((v.used i).1 hi)).1
  rw [v.len] at this
  exact this

/-- C76 (calls one at a time): a handle is refused only when all 65535 are out. -/
theorem C76_refused_partial {h : List (Ev × Option Nat)} {p : List Bool} (H : Hist h p) (hr : (malloc p).2 = none) :
    ∀ i, i < 65535 → i ∈ out h := by
  have v := inv_hist H
  intro i hi
  have hf : find p = none := by
    unfold malloc at hr
    cases hf : find p with
    | none => rfl
    | some j => rw [hf] at hr; cases hr
  simp only [find, List.findIdx?_eq_none_iff] at hf
  have hil : i < p.length := by rw [v.len]; exact hi
  have := hf p[i] (List.getElem_mem hil)
  rw [v.used i, List.getElem?_eq_getElem hil]
  simpa using this

/-- Three handles, the second of them returned and given out again. -/
example : ∃ h p, Hist h p ∧ out h = [1, 2, 0] := by
  refine ⟨_, _, .malloc (.free (i := 1) (.malloc (.malloc (.malloc .nil))) ?_), ?_⟩
  · decide +kernel
  · decide +kernel

/-- C76 fails for two threads at once: each of them calls once, nothing is returned, and both have the same handle. -/
theorem C76_race_violated : trun ⟨create, fun _ => none⟩ [.look false, .look true, .take false, .take true] =
    [(false, 0), (true, 0)] := by decide +kernel

end Sis.Pool
