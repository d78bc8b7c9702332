import Verif.Sync.LockListLemmas
/-
C37 and C38: what the readers of the shared list receive, and what is freed.
-/
namespace Sis.Ll
open Sis
open Sis.Lk (Node Heap load Q)

def run (sz : Nat → Nat) (s : L) : List Ev → Option (L × List (Ev × Out))
  | [] => some (s, [])
  | e :: es => if enabled s e then
      (step sz s e).bind fun (s, o) => (run sz s es).map fun (s, h) => (s, (e, o) :: h)
    else none

/-- A push, followed by a step with which the watcher takes its first place. -/
def watching (h : List (Ev × Out)) : Bool := (h.foldl (fun (a : Bool × Bool) x => match x.1 with
  | .push _ => (true, a.2)
  | .wake => (a.1, a.2 || a.1)
  | _ => a) (false, false)).2

/-- Steps other than opening a reader and clearing the list. -/
def plain : Ev → Bool
  | .push _ | .close _ | .fetch _ | .recv _ | .adv _ | .wake | .wtest | .wcheck | .wdrop => true
  | _ => false

/-- The schedules in which readers are opened for new messages only, after the watcher took its first place, and the
opening runs up to the writing of the cursor without a step of another thread in between; the list is not cleared. -/
inductive Calm (sz : Nat → Nat) (maxsize : Nat) : List (Ev × Out) → L → Prop
  | nil : Calm sz maxsize [] (create maxsize)
  | snoc {h s e s' o} : Calm sz maxsize h s → plain e = true → enabled s e = true → step sz s e = some (s', o) →
      Calm sz maxsize (h ++ [(e, o)]) s'
  | attach {h s s' h'} : Calm sz maxsize h s → watching h = true →
      run sz s [.openR false, .register (modes h).length, .look (modes h).length, .set (modes h).length] = some (s', h') →
      Calm sz maxsize (h ++ h') s'

/-! ### The watcher -/

private def WI (s : L) (p n : Nat) : Prop := match s.wpc, s.wcur with
  | .idle, none => True
  | .idle, some k => p < k ∧ k ≤ n
  | .top, some k => p < k ∧ k ≤ n
  | .chk b _, some k => p < k ∧ b = k + 1 ∧ b ≤ n
  | .pass b, some k => p < k ∧ b = k + 1 ∧ b ≤ n
  | _, none => False

private theorem WI_mono {s : L} {p n m : Nat} (v : WI s p n) (h : n ≤ m) : WI s p m := by
  unfold WI at v ⊢
  cases hp : s.wpc <;> cases hc : s.wcur <;> simp only [hp, hc] at v ⊢ <;> omega

private theorem WI_cur {s : L} {p n k : Nat} (v : WI s p n) (hk : s.wcur = some k) : p < k ∧ k ≤ n := by
  unfold WI at v
  cases hp : s.wpc <;> simp only [hp, hk] at v <;> omega

/-- The steps of the watcher before it drops anything. -/
private theorem watch_step {h : List (Ev × Out)} {s : L} {p : Nat} (v : Base h s p) (w : WI s p (pushed h).length) {e : Ev}
    (he : e = .wake ∨ e = .wtest ∨ e = .wcheck) (en : enabled s e = true) (sz : Nat → Nat) :
    ∃ s', step sz s e = some (s', .unit) ∧ Base (h ++ [(e, .unit)]) s' p ∧ WI s' p (pushed h).length ∧ s'.q = s.q ∧
      s'.readers = s.readers ∧ s'.users = s.users ∧ s'.save = s.save ∧ s'.cursize = s.cursize ∧
      (∀ k, s.wcur = some k → s'.wcur = some k) ∧
      (s.wcur = none → s'.wcur = none ∨ s'.wcur = some (p + 1)) ∧
      (e = .wake → p < (pushed h).length → s'.wcur ≠ none) ∧
      (e ≠ .wcheck → s'.wpc = .idle ∨ s'.wpc = .top ∨ ∃ b, s'.wpc = .chk b 0) ∧
      (e = .wcheck → ∃ b j, s.wpc = .chk b j ∧ s' = wcheck s b j) := by
  have mk : ∀ {s' : L}, s'.q = s.q → s'.readers = s.readers → Base (h ++ [(e, .unit)]) s' p := by
    intro s' h1 h2
    refine base_same v h2 ?_ nofun rfl ?_ ?_
    · have : pushes e = [] := by rcases he with rfl | rfl | rfl <;> rfl
      rw [this, List.append_nil, h1]
      exact v.core
    · intro i; rcases he with rfl | rfl | rfl <;> nofun
    · rcases he with rfl | rfl | rfl <;> rfl
  rcases he with rfl | rfl | rfl
  · simp only [enabled, Bool.and_eq_true, beq_iff_eq, bne_iff_ne] at en
    cases hc : s.wcur with
    | some k =>
      have hk := WI_cur w hc
      refine ⟨{ s with wpc := .top }, by simp only [step, wake, hc, Option.map_some], mk rfl rfl, ?_, rfl, rfl, rfl, rfl, rfl,
        fun _ h => by simpa [hc] using h, nofun, fun _ _ => by simp [hc], fun _ => .inr (.inl rfl), nofun⟩
      simp only [WI, hc]
      exact hk
    | none =>
      have hn : Lk.headNext s.q = some (if p < (pushed h).length then some (p + 1) else none) := by
        obtain ⟨o, ho, -⟩ := node_at v.core (Nat.le_refl p) v.core.pn
        simp only [Lk.headNext, v.core.hd, ho, Option.map_some]
      by_cases hp : p < (pushed h).length
      · rw [if_pos hp] at hn
        refine ⟨{ s with wcur := some (p + 1), wpc := .top }, by simp only [step, wake, hc, hn, Option.map_some], mk rfl rfl, ?_,
          rfl, rfl, rfl, rfl, rfl, nofun, fun _ => .inr rfl, fun _ _ => nofun, fun _ => .inr (.inl rfl), nofun⟩
        simp only [WI]
        omega
      · rw [if_neg hp] at hn
        refine ⟨s, by simp only [step, wake, hc, hn, Option.map_some], mk rfl rfl, w, rfl, rfl, rfl, rfl, rfl, nofun,
          fun _ => .inl hc, fun _ h => absurd h hp, fun _ => .inl en.1, nofun⟩
  · simp only [enabled, beq_iff_eq] at en
    cases hc : s.wcur with
    | none => simp [WI, en, hc] at w
    | some k =>
      have hk := WI_cur w hc
      have hn := core_next v.core (show p ≤ k by omega) hk.2
      by_cases hkn : k < (pushed h).length
      · rw [if_pos hkn] at hn
        refine ⟨{ s with wpc := .chk (k + 1) 0 }, by simp only [step, wtest, hc, hn, Option.bind_some, Option.map_some], mk rfl rfl, ?_,
          rfl, rfl, rfl, rfl, rfl, fun _ h => by simpa [hc] using h, nofun, nofun, fun _ => .inr (.inr ⟨_, rfl⟩), nofun⟩
        simp only [WI, hc]
        exact ⟨hk.1, trivial, by omega⟩
      · rw [if_neg hkn] at hn
        refine ⟨{ s with wpc := .idle }, by simp only [step, wtest, hc, hn, Option.bind_some, Option.map_some], mk rfl rfl, ?_,
          rfl, rfl, rfl, rfl, rfl, fun _ h => by simpa [hc] using h, nofun, nofun, fun _ => .inl rfl, nofun⟩
        simp only [WI, hc]
        exact hk
  · cases hpc : s.wpc with
    | chk b j =>
      cases hc : s.wcur with
      | none => simp [WI, hpc, hc] at w
      | some k =>
        have w' := w
        simp only [WI, hpc, hc] at w'
        have hk := WI_cur w hc
        have hs : step sz s .wcheck = some (wcheck s b j, .unit) := by simp only [step, hpc]
        cases hu : s.users[j]? with
        | none =>
          have e1 : wcheck s b j = { s with wpc := .pass b } := by simp only [wcheck, hu]
          refine ⟨wcheck s b j, hs, ?_, ?_, ?_, ?_, ?_, ?_, ?_, ?_, nofun, nofun, nofun, fun _ => ⟨b, j, rfl, rfl⟩⟩
          all_goals rw [e1]
          · exact mk rfl rfl
          · simp only [WI, hc]; exact w'
          · exact fun _ h => by simpa [hc] using h
        | some i =>
          by_cases hcur : s.readers[i]?.bind Rd.cursor = s.wcur
          · have e1 : wcheck s b j = { s with wpc := .idle } := by simp only [wcheck, hu, hcur, if_true]
            refine ⟨wcheck s b j, hs, ?_, ?_, ?_, ?_, ?_, ?_, ?_, ?_, nofun, nofun, nofun, fun _ => ⟨b, j, rfl, rfl⟩⟩
            all_goals rw [e1]
            · exact mk rfl rfl
            · simp only [WI, hc]; exact hk
            · exact fun _ h => by simpa [hc] using h
          · have e1 : wcheck s b j = { s with wpc := .chk b (j + 1) } := by simp only [wcheck, hu, if_neg hcur]
            refine ⟨wcheck s b j, hs, ?_, ?_, ?_, ?_, ?_, ?_, ?_, ?_, nofun, nofun, nofun, fun _ => ⟨b, j, rfl, rfl⟩⟩
            all_goals rw [e1]
            · exact mk rfl rfl
            · simp only [WI, hc]; exact w'
            · exact fun _ h => by simpa [hc] using h
    | _ => simp [enabled, hpc, isChk] at en

/-! ### Opening and closing -/

private theorem base_open {h : List (Ev × Out)} {s : L} {p : Nat} (v : Base h s p) (f : Bool) :
    Base (h ++ [(.openR f, .unit)]) { s with readers := s.readers ++ [{ fromHead := f }] } p := by
  have hml : (modes h).length = s.readers.length := by rw [← v.modes, List.length_map]
  refine ⟨by rw [pushed_snoc]; simpa [pushes] using v.core, ?_, ?_, ?_, ?_⟩
  · rw [modes_snoc, List.map_append, v.modes]; rfl
  · intro i r hi
    by_cases hil : i < s.readers.length
    · simp only [List.getElem?_append_left hil] at hi
      exact RI_mono (by omega) (v.rd i r hi) nofun nofun
    · simp only [List.getElem?_append_right (Nat.le_of_not_lt hil)] at hi
      have : i = s.readers.length := by
        have := (List.getElem?_eq_some_iff.1 hi).1
        simp at this; omega
      subst this
      simp at hi
      subst hi
      obtain ⟨h1, h2⟩ := v.fresh _ (Nat.le_refl _)
      refine ⟨rfl, by rw [received_snoc, h1]; rfl, ?_⟩
      rintro ⟨x, hx, hxe⟩
      rcases List.mem_append.1 hx with hx | hx
      · exact h2 ⟨x, hx, hxe⟩
      · simp only [List.mem_singleton] at hx
        subst hx
        cases hxe
  · intro i hi
    simp only [List.length_append, List.length_cons, List.length_nil] at hi
    obtain ⟨h1, h2⟩ := v.fresh i (by omega)
    refine ⟨by rw [received_snoc, h1]; rfl, ?_⟩
    rintro ⟨x, hx, hxe⟩
    rcases List.mem_append.1 hx with hx | hx
    · exact h2 ⟨x, hx, hxe⟩
    · simp only [List.mem_singleton] at hx
      subst hx
      cases hxe
  · rw [freed_snoc, v.free, pushed_snoc]; simp [frees, pushes]

private theorem close_get {s : L} {i j : Nat} {r : Rd} (h : (closeR s i).readers[j]? = some r) :
    (i = j ∧ ∃ r0, s.readers[j]? = some r0 ∧ r = { r0 with pc := .closed }) ∨ (i ≠ j ∧ s.readers[j]? = some r) := by
  simp only [closeR, List.getElem?_modify] at h
  by_cases hij : i = j
  · left
    subst hij
    simp only [if_true] at h
    cases hr : s.readers[i]? with
    | none => rw [hr] at h; cases h
    | some r0 => rw [hr] at h; cases h; exact ⟨rfl, r0, rfl, rfl⟩
  · right
    simp only [if_neg hij] at h
    exact ⟨hij, by simpa using h⟩

private theorem base_close {h : List (Ev × Out)} {s : L} {p : Nat} (v : Base h s p) (i : Nat) :
    Base (h ++ [(.close i, .unit)]) (closeR s i) p := by
  have hml : (modes h).length = s.readers.length := by rw [← v.modes, List.length_map]
  refine ⟨by rw [pushed_snoc]; simpa [pushes, closeR] using v.core, ?_, ?_, ?_, ?_⟩
  · rw [modes_snoc, ← v.modes]
    simp only [opens, List.append_nil]
    refine List.ext_getElem? fun j => ?_
    simp only [closeR, List.getElem?_map, List.getElem?_modify]
    by_cases hij : i = j
    · subst hij
      simp only [if_true]
      cases s.readers[i]? <;> rfl
    · simp only [if_neg hij]
      cases s.readers[j]? <;> rfl
  · intro j r hj
    rcases close_get hj with ⟨-, r0, h0, rfl⟩ | ⟨-, h0⟩
    · have hjl := (List.getElem?_eq_some_iff.1 h0).1
      obtain ⟨w, hw⟩ := RI_due (v.rd j r0 h0)
      obtain ⟨d, hd⟩ := due_grow (.close i) .unit (show j < (modes h).length by omega)
      refine ⟨w ++ d, ?_⟩
      have h1 : received j [(Ev.close i, Out.unit)] = [] := rfl
      rw [hd, hw, received_snoc, h1, List.append_nil, List.append_assoc]
    · have hjl := (List.getElem?_eq_some_iff.1 h0).1
      exact RI_mono (by omega) (v.rd j r h0) nofun nofun
  · intro j hj
    simp only [closeR, List.length_modify] at hj
    obtain ⟨h1, h2⟩ := v.fresh j hj
    refine ⟨by rw [received_snoc, h1]; rfl, ?_⟩
    rintro ⟨x, hx, hxe⟩
    rcases List.mem_append.1 hx with hx | hx
    · exact h2 ⟨x, hx, hxe⟩
    · simp only [List.mem_singleton] at hx
      subst hx
      cases hxe
  · rw [freed_snoc, v.free, pushed_snoc]; simp [frees, pushes]

/-- An enabled step of a reader's thread is that of its place. -/
private theorem reader_ev {s : L} {i : Nat} {e : Ev} (he : e = .look i ∨ e = .set i ∨ e = .fetch i ∨ e = .recv i ∨ e = .adv i)
    (en : enabled s e = true) : ∃ r, s.readers[i]? = some r ∧ r.pc ≠ .closed ∧ e = rev r.pc i ∧
      ∀ sz, step sz s e = rstep s i r := by
  cases hr : s.readers[i]? with
  | none =>
    rcases he with rfl | rfl | rfl | rfl | rfl <;> simp [enabled, pcOf, hr] at en
  | some r =>
    refine ⟨r, rfl, ?_⟩
    have hp : pcOf s i = some r.pc := by simp [pcOf, hr]
    rcases he with rfl | rfl | rfl | rfl | rfl <;> simp only [enabled, hp] at en <;> cases hpc : r.pc <;> simp [hpc] at en <;>
      refine ⟨nofun, rfl, fun sz => ?_⟩ <;> simp only [step, hr, Option.bind_some]

/-! ### Schedules in which nothing is freed -/

private def total (sz : Nat → Nat) (l : List Nat) : Nat := (l.map sz).sum

private theorem total_append (sz : Nat → Nat) (a b : List Nat) : total sz (a ++ b) = total sz a + total sz b := by
  simp [total]

private theorem total_take_le (sz : Nat → Nat) (l : List Nat) (k : Nat) : total sz (l.take k) ≤ total sz l := by
  have h := total_append sz (l.take k) (l.drop k)
  rw [List.take_append_drop] at h
  omega

private structure QI (sz : Nat → Nat) (h : List (Ev × Out)) (s : L) : Prop where
  base : Base h s 0
  wi : WI s 0 (pushed h).length
  save : match s.save with
    | .all => s.wcur = none
    | .none_ => False
    | .size _ => s.cursize = total sz ((pushed h).take ((s.wcur.getD 1) - 1))

private theorem safe_zero (r : Rd) : RSafe 0 r := by
  unfold RSafe
  cases r.pc <;> simp

private theorem reader_cases {e : Ev} : (∃ i, e = .look i ∨ e = .set i ∨ e = .fetch i ∨ e = .recv i ∨ e = .adv i) ∨
    (e = .wake ∨ e = .wtest ∨ e = .wcheck) ∨ (∃ o, e = .push o) ∨ (∃ f, e = .openR f) ∨ (∃ i, e = .register i) ∨
    (∃ i, e = .close i) ∨ e = .wdrop ∨ e = .clear := by
  cases e <;> simp

private theorem quiet_step {sz : Nat → Nat} {h : List (Ev × Out)} {s : L} (q : QI sz h s) {e : Ev} (en : enabled s e = true)
    (hc : e ≠ .clear) (ht : ∀ m, s.save = .size m → total sz (pushed h ++ pushes e) ≤ m) :
    ∃ s' o, step sz s e = some (s', o) ∧ QI sz (h ++ [(e, o)]) s' ∧ s'.save = s.save := by
  obtain ⟨v, w, hsv⟩ := q
  have grow : ∀ (o : Out), pushes e = [] → pushed (h ++ [(e, o)]) = pushed h := fun o he => by
    rw [pushed_snoc, he, List.append_nil]
  rcases reader_cases (e := e) with ⟨i, he⟩ | he | ⟨a, rfl⟩ | ⟨f, rfl⟩ | ⟨i, rfl⟩ | ⟨i, rfl⟩ | rfl | rfl
  · obtain ⟨r, hr, hnc, rfl, hst⟩ := reader_ev he en
    obtain ⟨r', o, e1, b1, -⟩ := reader_step v hr (safe_zero r) hnc
    have hp : pushes (rev r.pc i) = [] := by cases r.pc <;> rfl
    refine ⟨_, o, by rw [hst]; exact e1, ⟨b1, by rw [grow o hp]; exact w, ?_⟩, rfl⟩
    rw [grow o hp]
    exact hsv
  · obtain ⟨s', e1, b1, w1, hq, hrd, hu, hsave, hcs, hcur, hcur0, -⟩ := watch_step v w he en sz
    have hp : pushes e = [] := by rcases he with rfl | rfl | rfl <;> rfl
    refine ⟨s', .unit, e1, ⟨b1, by rw [grow _ hp]; exact w1, ?_⟩, hsave⟩
    rw [hsave, hcs, grow _ hp]
    cases hs : s.save with
    | all =>
      rw [hs] at hsv
      simp only at hsv ⊢
      rcases he with rfl | rfl | rfl
      · simp [enabled, hs] at en
      · simp only [enabled, beq_iff_eq] at en
        simp [WI, en, hsv] at w
      · cases hpc : s.wpc with
        | chk b j => simp [WI, hpc, hsv] at w
        | _ => simp [enabled, isChk, hpc] at en
    | none_ => rw [hs] at hsv; exact hsv
    | size m =>
      rw [hs] at hsv
      simp only at hsv ⊢
      rw [hsv]
      cases hw : s.wcur with
      | some k => rw [hcur k hw]
      | none =>
        rcases hcur0 hw with h1 | h1
        · rw [h1]
        · rw [h1]; rfl
  · obtain ⟨q', e1, c1⟩ := core_push v.core a
    refine ⟨{ s with q := q' }, .unit, by simp only [step, e1, Option.map_some],
      ⟨base_same v rfl (by simpa [pushes] using c1) nofun rfl nofun rfl, ?_, ?_⟩, rfl⟩
    · rw [pushed_snoc]
      exact WI_mono (s := { s with q := q' }) w (by simp)
    · rw [pushed_snoc]
      cases hs : s.save with
      | all => rw [hs] at hsv; exact hsv
      | none_ => rw [hs] at hsv; exact hsv
      | size m =>
        rw [hs] at hsv
        simp only at hsv ⊢
        rw [hsv, List.take_append_of_le_length]
        cases hw : s.wcur with
        | some k => have := WI_cur w hw; simp only [Option.getD_some]; omega
        | none => simp
  · refine ⟨_, .unit, rfl, ⟨base_open v f, by rw [grow _ rfl]; exact w, ?_⟩, rfl⟩
    rw [grow _ rfl]; exact hsv
  · refine ⟨_, .unit, rfl, ⟨base_same (s' := { s with users := s.users ++ [i] }) v rfl
      (by simpa [pushes] using v.core) nofun rfl nofun rfl, by rw [grow _ rfl]; exact w, ?_⟩, rfl⟩
    rw [grow _ rfl]; exact hsv
  · refine ⟨_, .unit, rfl, ⟨base_close v i, by rw [grow _ rfl]; exact w, ?_⟩, rfl⟩
    rw [grow _ rfl]; exact hsv
  · cases hpc : s.wpc with
    | pass b =>
      cases hw : s.wcur with
      | none => simp [WI, hpc, hw] at w
      | some k =>
        have w' := w
        simp only [WI, hpc, hw] at w'
        obtain ⟨w1, rfl, w3⟩ := w'
        cases hs : s.save with
        | all => rw [hs] at hsv; simp only at hsv; rw [hsv] at hw; cases hw
        | none_ => rw [hs] at hsv; exact hsv.elim
        | size m =>
          rw [hs] at hsv
          simp only [hw, Option.getD_some] at hsv
          obtain ⟨n, e1, e2⟩ := core_obj v.core w1 (show k ≤ (pushed h).length by omega)
          have htk : total sz ((pushed h).take k) = s.cursize + sz ((pushed h)[k - 1]'(by omega)) := by
            have h1 : (pushed h).take k = (pushed h).take (k - 1) ++ [(pushed h)[k - 1]'(by omega)] := by
              have := List.take_add_one (l := pushed h) (i := k - 1)
              rw [show k - 1 + 1 = k by omega, List.getElem?_eq_getElem (by omega)] at this
              exact this
            rw [h1, total_append, hsv]
            simp [total]
          have hle : ¬ s.cursize + sz ((pushed h)[k - 1]'(by omega)) > m := by
            have h1 := ht m hs
            simp only [pushes, List.append_nil] at h1
            have h2 := total_take_le sz (pushed h) k
            omega
          refine ⟨{ s with wcur := some (k + 1), wpc := .top, cursize := s.cursize + sz ((pushed h)[k - 1]'(by omega)) }, .unit, ?_,
            ⟨base_same v rfl (by simpa [pushes] using v.core) nofun rfl nofun rfl, ?_, ?_⟩, hs⟩
          · simp only [step, hpc, hw, Option.bind_some, wdrop, hs, e1, e2, Option.map_some, Option.getD_some, if_neg hle]
          · rw [grow _ rfl]
            simp only [WI]
            omega
          · rw [grow _ rfl, hs]
            simp only [Option.getD_some, Nat.add_sub_cancel]
            exact htk.symm
    | _ => simp [enabled, hpc] at en
  · exact absurd rfl hc

private theorem quiet_create (sz : Nat → Nat) {m : Nat} (hm : m ≠ 1) : QI sz [] (create m) := by
  refine ⟨⟨core_create, rfl, nofun, fun i _ => ⟨rfl, by rintro ⟨x, hx, _⟩; cases hx⟩, rfl⟩, trivial, ?_⟩
  simp only [create, saveMode]
  by_cases h0 : m = 0
  · rw [if_pos h0]
    trivial
  · rw [if_neg h0, if_neg hm]
    rfl

private theorem quiet_hist {sz : Nat → Nat} {m : Nat} (hm : m ≠ 1) {h : List (Ev × Out)} {s : L} (H : Hist sz m h s)
    (hn : ∀ x ∈ h, x.1 ≠ .clear) (ht : m = 0 ∨ total sz (pushed h) ≤ (if m < 1024 then 1024 else m)) :
    QI sz h s ∧ s.save = saveMode m := by
  induction H with
  | nil => exact ⟨quiet_create sz hm, rfl⟩
  | @snoc h s e s' o H en hs ih =>
    have ht' : m = 0 ∨ total sz (pushed h) ≤ (if m < 1024 then 1024 else m) := by
      rcases ht with h0 | h1
      · exact .inl h0
      · rw [pushed_snoc, total_append] at h1
        exact .inr (by omega)
    obtain ⟨qi, hsv⟩ := ih (fun x hx => hn x (List.mem_append_left _ hx)) ht'
    obtain ⟨s1, o1, e1, q1, sv1⟩ := quiet_step qi en (hn (e, o) (by simp)) (by
      intro mx hmx
      rw [hsv] at hmx
      unfold saveMode at hmx
      rcases ht with h0 | h1
      · rw [if_pos h0] at hmx; cases hmx
      · by_cases h0 : m = 0
        · rw [if_pos h0] at hmx; cases hmx
        · rw [if_neg h0, if_neg hm] at hmx
          cases hmx
          rw [← pushed_snoc h e o]
          exact h1)
    rw [e1] at hs
    cases hs
    exact ⟨q1, by rw [sv1, hsv]⟩

/-- What holds of reader `i` opened in the history. -/
private theorem base_due {h : List (Ev × Out)} {s : L} {p : Nat} (v : Base h s p) (i : Nat) : ∃ w, due i h = received i h ++ w := by
  by_cases hi : i < s.readers.length
  · exact RI_due (v.rd i _ (List.getElem?_eq_getElem hi))
  · exact ⟨_, by rw [(v.fresh i (by omega)).1]; rfl⟩

/-! ### Schedules in which readers are opened for new messages only -/

/-- The watcher is behind reader `i`. -/
private def Past (s : L) (i : Nat) : Prop := ∀ r, s.readers[i]? = some r → r.pc ≠ .closed → ∀ c, r.cursor = some c →
  ∀ k, s.wcur = some k → k < c

private structure CI (s : L) : Prop where
  reg : ∀ (i : Nat) r, s.readers[i]? = some r → r.pc ≠ .closed → i ∈ s.users ∧ ∃ c, r.cursor = some c ∧
    ∃ k, s.wcur = some k ∧ k ≤ c
  past : match s.wpc with
    | .chk _ j => ∀ j' i, j' < j → s.users[j']? = some i → Past s i
    | .pass _ => ∀ i ∈ s.users, Past s i
    | _ => True

private theorem ci_safe {h : List (Ev × Out)} {s : L} {p n : Nat} (v : Base h s p) (w : WI s p n) (c : CI s) {i : Nat} {r : Rd}
    (hr : s.readers[i]? = some r) : RSafe p r := by
  have hri := v.rd i r hr
  unfold RSafe
  unfold RI at hri
  cases hp : r.pc with
  | closed => trivial
  | boot =>
    rw [hp] at hri
    obtain ⟨-, c, hc, -⟩ := c.reg i r hr (by rw [hp]; nofun)
    rw [hri.1] at hc; cases hc
  | looked a =>
    rw [hp] at hri
    obtain ⟨-, c, hc, -⟩ := c.reg i r hr (by rw [hp]; nofun)
    rw [hri.1] at hc; cases hc
  | _ =>
    intro d hd
    obtain ⟨-, c, hc, k, hk, hkc⟩ := c.reg i r hr (by rw [hp]; nofun)
    rw [hd] at hc; cases hc
    have := WI_cur w hk
    omega

private structure CalmI (sz : Nat → Nat) (h : List (Ev × Out)) (s : L) (p : Nat) : Prop where
  base : Base h s p
  wi : WI s p (pushed h).length
  ci : CI s
  wat : watching h = true → s.wcur ≠ none
  none : s.wcur = none → p = 0
  size : ∀ m, s.save = .size m → s.cursize = total sz (((pushed h).take (s.wcur.getD 1 - 1)).drop p)
  lim : ∀ m z, s.save = .size m → (∀ o ∈ pushed h, sz o = z) → s.cursize ≤ m

private def watch2 (h : List (Ev × Out)) : Bool × Bool := h.foldl (fun (a : Bool × Bool) x => match x.1 with
  | .push _ => (true, a.2)
  | .wake => (a.1, a.2 || a.1)
  | _ => a) (false, false)

private theorem watch2_snoc (h : List (Ev × Out)) (e : Ev) (o : Out) : watch2 (h ++ [(e, o)]) = (match e with
    | .push _ => (true, (watch2 h).2)
    | .wake => ((watch2 h).1, (watch2 h).2 || (watch2 h).1)
    | _ => watch2 h) := by
  cases e <;> simp only [watch2, List.foldl_append, List.foldl_cons, List.foldl_nil]

private theorem watch2_pushed (h : List (Ev × Out)) : (watch2 h).1 = true → pushed h ≠ [] := by
  have key : ∀ (g : List (Ev × Out)) (a : Bool × Bool), (g.foldl (fun (a : Bool × Bool) x => match x.1 with
      | .push _ => (true, a.2)
      | .wake => (a.1, a.2 || a.1)
      | _ => a) a).1 = true → a.1 = true ∨ pushed g ≠ [] := by
    intro g
    induction g with
    | nil => intro a ha; exact .inl ha
    | cons x g ih =>
      intro a ha
      rw [List.foldl_cons] at ha
      have hx : pushed (x :: g) = pushes x.1 ++ pushed g := by
        obtain ⟨e, o⟩ := x
        rw [show (e, o) :: g = [(e, o)] ++ g from rfl, pushed_append, pushed_one]
      rcases ih _ ha with h1 | h1
      · obtain ⟨e, o⟩ := x
        cases e <;> first | exact .inl h1 | (right; rw [hx]; simp [pushes])
      · right
        rw [hx]
        simp [h1]
  intro hh
  rcases key h _ hh with h1 | h1
  · cases h1
  · exact h1

private theorem watching_eq (h : List (Ev × Out)) : watching h = (watch2 h).2 := rfl

private theorem wat_keep {h : List (Ev × Out)} {e : Ev} {o : Out} (he : e ≠ .wake) (hw : watching (h ++ [(e, o)]) = true) :
    watching h = true := by
  rw [watching_eq, watch2_snoc] at hw
  cases e <;> first | exact absurd rfl he | exact hw

private theorem calm_step {sz : Nat → Nat} {h : List (Ev × Out)} {s : L} {p : Nat} (g : CalmI sz h s p) {e : Ev}
    (hpl : plain e = true) (en : enabled s e = true) :
    ∃ s' o p', step sz s e = some (s', o) ∧ CalmI sz (h ++ [(e, o)]) s' p' := by
  obtain ⟨v, w, c, hwat, hnone, hsz, hlim⟩ := g
  have grow : ∀ (o : Out), pushes e = [] → pushed (h ++ [(e, o)]) = pushed h := fun o he => by
    rw [pushed_snoc, he, List.append_nil]
  rcases reader_cases (e := e) with ⟨i, he⟩ | he | ⟨a, rfl⟩ | ⟨f, rfl⟩ | ⟨i, rfl⟩ | ⟨i, rfl⟩ | rfl | rfl
  · obtain ⟨r, hr, hnc, rfl, hst⟩ := reader_ev he en
    obtain ⟨r', o, e1, b1, -, -, hnc', hmon, -⟩ := reader_step v hr (ci_safe v w c hr) hnc
    have hp : pushes (rev r.pc i) = [] := by cases r.pc <;> rfl
    have hil : i < s.readers.length := (List.getElem?_eq_some_iff.1 hr).1
    obtain ⟨hu, cc, hcc, k, hk, hkc⟩ := c.reg i r hr hnc
    obtain ⟨cc', hcc', hle⟩ := hmon cc hcc
    have past_keep : ∀ j, Past s j → Past (setR s i r') j := by
      intro j hj rj hrj hncj d hd k' hk'
      simp only [setR] at hrj hk'
      rw [List.getElem?_set] at hrj
      by_cases hij : i = j
      · subst hij
        rw [if_pos rfl, if_pos hil] at hrj
        cases hrj
        rw [hcc'] at hd
        cases hd
        have := hj r hr hnc cc hcc k' hk'
        omega
      · rw [if_neg hij] at hrj
        exact hj rj hrj hncj d hd k' hk'
    refine ⟨_, o, p, by rw [hst]; exact e1, ⟨b1, by rw [grow o hp]; exact w, ⟨?_, ?_⟩, ?_, hnone,
      by rw [grow o hp]; exact hsz, by rw [grow o hp]; exact hlim⟩⟩
    · intro j rj hj hncj
      simp only [setR] at hj ⊢
      rw [List.getElem?_set] at hj
      by_cases hij : i = j
      · subst hij
        rw [if_pos rfl, if_pos hil] at hj
        cases hj
        exact ⟨hu, cc', hcc', k, hk, by omega⟩
      · rw [if_neg hij] at hj
        exact c.reg j rj hj hncj
    · have := c.past
      simp only [setR] at this ⊢
      cases hw : s.wpc with
      | chk b j => rw [hw] at this; exact fun j' i' h1 h2 => past_keep i' (this j' i' h1 h2)
      | pass b => rw [hw] at this; exact fun i' h1 => past_keep i' (this i' h1)
      | _ => trivial
    · intro hw
      exact hwat (wat_keep (by cases r.pc <;> nofun) hw)
  · have hp : pushes e = [] := by rcases he with rfl | rfl | rfl <;> rfl
    obtain ⟨s', e1, b1, w1, hq, hrd, hus, hsave, hcs, hstay, hcur0, hwk, hpc1, hpc2⟩ := watch_step v w he en sz
    have past_keep : ∀ j, Past s j → Past s' j := by
      intro j hj rj hrj hncj d hd k' hk'
      rw [hrd] at hrj
      obtain ⟨-, _, _, k, hk, -⟩ := c.reg j rj hrj hncj
      rw [hstay k hk] at hk'
      cases hk'
      exact hj rj hrj hncj d hd k' hk
    refine ⟨s', .unit, p, e1, ⟨b1, by rw [grow _ hp]; exact w1, ⟨?_, ?_⟩, ?_, ?_, ?_,
      by rw [grow _ hp, hsave, hcs]; exact hlim⟩⟩
    · intro j rj hj hncj
      rw [hrd] at hj
      obtain ⟨h1, cc, hcc, k, hk, hkc⟩ := c.reg j rj hj hncj
      exact ⟨by rw [hus]; exact h1, cc, hcc, k, hstay k hk, hkc⟩
    · by_cases hwc : e = .wcheck
      · obtain ⟨b, j, hb, rfl⟩ := hpc2 hwc
        have hpast := c.past
        rw [hb] at hpast
        simp only at hpast
        cases hu : s.users[j]? with
        | none =>
          have e2 : (wcheck s b j).wpc = .pass b := by simp only [wcheck, hu]
          rw [e2]
          intro i hi
          rw [hus] at hi
          obtain ⟨j', hj', hje⟩ := List.getElem_of_mem hi
          have hjl : s.users.length ≤ j := List.getElem?_eq_none_iff.1 hu
          exact past_keep i (hpast j' i (by omega) (by rw [List.getElem?_eq_getElem hj', hje]))
        | some i =>
          by_cases hcur : s.readers[i]?.bind Rd.cursor = s.wcur
          · have e2 : (wcheck s b j).wpc = .idle := by simp only [wcheck, hu, hcur, if_true]
            rw [e2]; trivial
          · have e2 : (wcheck s b j).wpc = .chk b (j + 1) := by simp only [wcheck, hu, if_neg hcur]
            rw [e2]
            intro j' i' h1 h2
            rw [hus] at h2
            refine past_keep i' ?_
            by_cases hj : j' = j
            · subst hj
              rw [hu] at h2
              cases h2
              intro r hr hncr d hd k' hk'
              obtain ⟨-, cc, hcc, k, hk, hkc⟩ := c.reg i r hr hncr
              rw [hd] at hcc; cases hcc
              rw [hk'] at hk; cases hk
              have : d ≠ k' := by
                intro hdk
                apply hcur
                rw [hr, Option.bind_some, hd, hk', hdk]
              omega
            · exact hpast j' i' (by omega) h2
      · rcases hpc1 hwc with h1 | h1 | ⟨b, h1⟩
        · rw [h1]; trivial
        · rw [h1]; trivial
        · rw [h1]
          exact fun j' i' h2 => absurd h2 (Nat.not_lt_zero _)
    · intro hw
      rcases he with rfl | rfl | rfl
      · rw [watching_eq, watch2_snoc] at hw
        simp only [Bool.or_eq_true] at hw
        cases hcw : s.wcur with
        | some k => rw [hstay k hcw]; nofun
        | none =>
          rcases hw with hw | hw
          · exact absurd hcw (hwat hw)
          · have h1 := watch2_pushed h hw
            have h2 := hnone hcw
            refine hwk rfl ?_
            have := List.length_pos_iff.2 h1
            omega
      · have h1 := hwat (wat_keep (by nofun) hw)
        cases hcw : s.wcur with
        | some k => rw [hstay k hcw]; nofun
        | none => exact absurd hcw h1
      · have h1 := hwat (wat_keep (by nofun) hw)
        cases hcw : s.wcur with
        | some k => rw [hstay k hcw]; nofun
        | none => exact absurd hcw h1
    · intro h0
      cases hcw : s.wcur with
      | some k => rw [hstay k hcw] at h0; cases h0
      | none => exact hnone hcw
    · intro m hm
      rw [hsave] at hm
      rw [hcs, hsz m hm, grow _ hp]
      cases hcw : s.wcur with
      | some k => rw [hstay k hcw]
      | none =>
        have h2 := hnone hcw
        rcases hcur0 hcw with h1 | h1
        · rw [h1]
        · rw [h1, h2]; rfl
  · obtain ⟨q', e1, c1⟩ := core_push v.core a
    refine ⟨{ s with q := q' }, .unit, p, by simp only [step, e1, Option.map_some],
      ⟨base_same v rfl (by simpa [pushes] using c1) nofun rfl nofun rfl, ?_, ⟨c.reg, c.past⟩, ?_, hnone, ?_, ?_⟩⟩
    rotate_left 2
    · intro m hm
      show s.cursize = _
      rw [hsz m hm, pushed_snoc]
      have hle : s.wcur.getD 1 - 1 ≤ (pushed h).length := by
        cases hcw : s.wcur with
        | none => exact Nat.zero_le _
        | some k => have := WI_cur w hcw; simp only [Option.getD_some]; omega
      rw [List.take_append_of_le_length hle]
    · intro m z hm hz
      exact hlim m z hm fun o ho => hz o (by rw [pushed_snoc]; exact List.mem_append_left _ ho)
    · rw [pushed_snoc]
      exact WI_mono (s := { s with q := q' }) w (by simp)
    · intro hw
      exact hwat (wat_keep (by nofun) hw)
  · cases hpl
  · cases hpl
  · simp only [enabled, Bool.and_eq_true, Bool.not_eq_true'] at en
    have past_keep : ∀ j, Past s j → Past (closeR s i) j := by
      intro j hj rj hrj hncj d hd k' hk'
      rcases close_get hrj with ⟨-, r0, -, rfl⟩ | ⟨-, h0⟩
      · exact absurd rfl hncj
      · exact hj rj h0 hncj d hd k' hk'
    refine ⟨_, .unit, p, rfl, ⟨base_close v i, by rw [grow _ rfl]; exact w, ⟨?_, ?_⟩, ?_, hnone,
      by rw [grow _ rfl]; exact hsz, by rw [grow _ rfl]; exact hlim⟩⟩
    · intro j rj hj hncj
      rcases close_get hj with ⟨-, r0, -, rfl⟩ | ⟨hij, h0⟩
      · exact absurd rfl hncj
      · obtain ⟨h1, h2⟩ := c.reg j rj h0 hncj
        exact ⟨(List.mem_erase_of_ne (Ne.symm hij)).2 h1, h2⟩
    · have := c.past
      simp only [closeR] at this ⊢
      cases hw : s.wpc with
      | chk b j => rw [hw] at en; cases en.2
      | pass b => rw [hw] at this; exact fun i' h1 => past_keep i' (this i' (List.mem_of_mem_erase h1))
      | _ => trivial
    · intro hw
      exact hwat (wat_keep (by nofun) hw)
  · cases hpc : s.wpc with
    | pass b =>
      cases hw : s.wcur with
      | none => simp [WI, hpc, hw] at w
      | some k =>
        have w' := w
        simp only [WI, hpc, hw] at w'
        obtain ⟨w1, rfl, w3⟩ := w'
        have hpast := c.past
        rw [hpc] at hpast
        simp only at hpast
        have finish : ∀ (s' : L) (o : Out) (p' : Nat), s'.readers = s.readers → s'.users = s.users → s'.wcur = some (k + 1) →
            s'.wpc = .top → p' ≤ p + 1 →
            (∀ m, s'.save = .size m → s'.cursize = total sz (((pushed h).take k).drop p') ∧
              ∀ z, (∀ o ∈ pushed h, sz o = z) → s'.cursize ≤ m) →
            Base (h ++ [(.wdrop, o)]) s' p' → CalmI sz (h ++ [(.wdrop, o)]) s' p' := by
          intro s' o p' h1 h2 h3 h4 h5 h7 h6
          refine ⟨h6, ?_, ⟨?_, by rw [h4]; trivial⟩, fun _ => (by rw [h3]; nofun), fun h0 => (by rw [h3] at h0; cases h0), ?_, ?_⟩
          rotate_left 2
          · intro m hm
            rw [h3, grow _ rfl]
            exact (h7 m hm).1
          · intro m z hm hz
            rw [grow _ rfl] at hz
            exact (h7 m hm).2 z hz
          · rw [grow _ rfl]
            simp only [WI, h3, h4]
            omega
          · intro j rj hj hncj
            rw [h1] at hj
            obtain ⟨g1, cc, hcc, k', hk', hkc⟩ := c.reg j rj hj hncj
            rw [hw] at hk'; cases hk'
            have := hpast j g1 rj hj hncj cc hcc k hw
            exact ⟨by rw [h2]; exact g1, cc, hcc, k + 1, h3, by omega⟩
        have hpn : p < (pushed h).length := by omega
        obtain ⟨q', e1, c1⟩ := core_pop v.core hpn
        have popped : ∀ (s' : L), s'.readers = s.readers → s'.q = q' →
            Base (h ++ [(.wdrop, .freed (some (pushed h)[p]))]) s' (p + 1) := by
          intro s' h1 h2
          refine ⟨by rw [pushed_snoc, h2]; simpa [pushes] using c1, by rw [h1, v.modes, modes_snoc]; simp [opens], ?_, ?_, ?_⟩
          · intro i r hi
            rw [h1] at hi
            have hl : i < (Ll.modes h).length := by
              rw [← v.modes, List.length_map]
              exact (List.getElem?_eq_some_iff.1 hi).1
            exact RI_mono hl (v.rd i r hi) nofun nofun
          · intro i hi
            rw [h1] at hi
            obtain ⟨f1, f2⟩ := v.fresh i hi
            refine ⟨by rw [received_snoc, f1]; rfl, ?_⟩
            rintro ⟨x, hx, hxe⟩
            rcases List.mem_append.1 hx with hx | hx
            · exact f2 ⟨x, hx, hxe⟩
            · simp only [List.mem_singleton] at hx
              subst hx
              cases hxe
          · rw [freed_snoc, v.free, pushed_snoc]
            simp only [frees, pushes, List.append_nil]
            rw [List.take_add_one, List.getElem?_eq_getElem hpn, List.map_append]
            rfl
        cases hs : s.save with
        | all =>
          exact ⟨{ s with wcur := some (k + 1), wpc := .top }, .unit, p,
            by simp only [step, hpc, hw, Option.bind_some, wdrop, hs],
            finish _ _ p rfl rfl rfl rfl (by omega) (by intro m hm; simp only [hs] at hm; cases hm) (base_same v rfl (by simpa [pushes] using v.core) nofun rfl nofun rfl)⟩
        | none_ =>
          exact ⟨⟨q', .none_, s.users, s.readers, some (k + 1), .top, s.cursize + sz (pushed h)[p]⟩, _, p + 1,
            by simp only [step, hpc, hw, Option.bind_some, wdrop, hs, e1, Option.map_some, Option.getD_some],
            finish _ _ (p + 1) rfl rfl rfl rfl (Nat.le_refl _) nofun (popped _ rfl rfl)⟩
        | size m =>
          obtain ⟨n, f1, f2⟩ := core_obj v.core w1 (show k ≤ (pushed h).length by omega)
          have hcur : s.cursize + (n.obj.map sz).getD 0 = total sz (((pushed h).take k).drop p) := by
            have h1 := hsz m hs
            rw [hw, Option.getD_some] at h1
            rw [h1, f2, Option.map_some, Option.getD_some]
            have h2 : (pushed h).take k = (pushed h).take (k - 1) ++ [(pushed h)[k - 1]] := by
              have := List.take_add_one (l := pushed h) (i := k - 1)
              rw [show k - 1 + 1 = k by omega, List.getElem?_eq_getElem (by omega)] at this
              exact this
            rw [h2, List.drop_append_of_le_length (by rw [List.length_take]; omega), total_append]
            simp [total]
          have hdrop : total sz (((pushed h).take k).drop p) = sz (pushed h)[p] + total sz (((pushed h).take k).drop (p + 1)) := by
            have h1 : p < ((pushed h).take k).length := by rw [List.length_take]; omega
            rw [List.drop_eq_getElem_cons h1, List.getElem_take]
            simp [total]
          by_cases hm : s.cursize + (n.obj.map sz).getD 0 > m
          · exact ⟨⟨q', .size m, s.users, s.readers, some (k + 1), .top,
                s.cursize + (n.obj.map sz).getD 0 - sz (pushed h)[p]⟩, _, p + 1,
              by simp only [step, hpc, hw, Option.bind_some, wdrop, hs, f1, if_pos hm, e1, Option.map_some, Option.getD_some],
              finish _ _ (p + 1) rfl rfl rfl rfl (Nat.le_refl _) (by
                intro m' hm'
                cases hm'
                refine ⟨by show s.cursize + _ - _ = _; omega, fun z hz => ?_⟩
                have h1 := hlim m z hs hz
                have h2 := hz _ (List.getElem_mem hpn)
                have h3 := hz _ (List.getElem_mem (show k - 1 < (pushed h).length by omega))
                rw [f2, Option.map_some, Option.getD_some, h3]
                show s.cursize + z - _ ≤ m
                omega) (popped _ rfl rfl)⟩
          · exact ⟨⟨s.q, .size m, s.users, s.readers, some (k + 1), .top, s.cursize + (n.obj.map sz).getD 0⟩, .unit, p,
              by simp only [step, hpc, hw, Option.bind_some, wdrop, hs, f1, if_neg hm],
              finish _ _ p rfl rfl rfl rfl (by omega) (by
                intro m' hm'
                cases hm'
                exact ⟨hcur, fun z hz => by show s.cursize + _ ≤ m; omega⟩) (base_same v rfl (by simpa [pushes] using v.core) nofun rfl nofun rfl)⟩
    | _ => simp [enabled, hpc] at en
  · cases hpl

private theorem run_hist {sz : Nat → Nat} {m : Nat} : ∀ {es : List Ev} {h : List (Ev × Out)} {s s' : L} {h' : List (Ev × Out)},
    Hist sz m h s → run sz s es = some (s', h') → Hist sz m (h ++ h') s'
  | [], h, s, s', h', H, hr => by
    cases hr
    rw [List.append_nil]
    exact H
  | e :: es, h, s, s', h', H, hr => by
    unfold run at hr
    by_cases en : enabled s e = true
    · rw [if_pos en] at hr
      cases hs : step sz s e with
      | none => rw [hs] at hr; cases hr
      | some x =>
        obtain ⟨s1, o⟩ := x
        rw [hs, Option.bind_some] at hr
        cases hr2 : run sz s1 es with
        | none => simp only [hr2, Option.map_none] at hr; cases hr
        | some y =>
          obtain ⟨s2, h2⟩ := y
          simp only [hr2, Option.map_some] at hr
          cases hr
          have := run_hist (H.snoc en hs) hr2
          rw [List.append_assoc] at this
          exact this
    · rw [if_neg en] at hr
      cases hr

private theorem run_cons {sz : Nat → Nat} {s s1 s2 : L} {e : Ev} {o : Out} {es : List Ev} {h : List (Ev × Out)}
    (en : enabled s e = true) (hs : step sz s e = some (s1, o)) (hr : run sz s1 es = some (s2, h)) :
    run sz s (e :: es) = some (s2, (e, o) :: h) := by
  unfold run
  simp only [if_pos en, hs, Option.bind_some, hr, Option.map_some]

private theorem run_uncons {sz : Nat → Nat} {s s2 : L} {e : Ev} {es : List Ev} {h : List (Ev × Out)}
    (hr : run sz s (e :: es) = some (s2, h)) : enabled s e = true ∧ ∃ s1 o h1, step sz s e = some (s1, o) ∧
      run sz s1 es = some (s2, h1) ∧ h = (e, o) :: h1 := by
  unfold run at hr
  by_cases en : enabled s e = true
  · rw [if_pos en] at hr
    cases hs : step sz s e with
    | none => rw [hs] at hr; cases hr
    | some x =>
      obtain ⟨s1, o⟩ := x
      rw [hs, Option.bind_some] at hr
      cases hr2 : run sz s1 es with
      | none => simp only [hr2, Option.map_none] at hr; cases hr
      | some y =>
        obtain ⟨s2, h2⟩ := y
        simp only [hr2, Option.map_some] at hr
        cases hr
        exact ⟨en, s1, o, h2, rfl, hr2, rfl⟩
  · rw [if_neg en] at hr
    cases hr

private theorem calm_attach {sz : Nat → Nat} {h : List (Ev × Out)} {s s' : L} {p : Nat} {h' : List (Ev × Out)}
    (g : CalmI sz h s p) (hwt : watching h = true)
    (hr : run sz s [.openR false, .register (modes h).length, .look (modes h).length, .set (modes h).length] = some (s', h')) :
    CalmI sz (h ++ h') s' p := by
  obtain ⟨v, w, c, hwat, hnone, hsz, hlim⟩ := g
  have hml : (modes h).length = s.readers.length := by rw [← v.modes, List.length_map]
  generalize hm : (modes h).length = m at hr
  have hmr : s.readers.length = m := by omega
  obtain ⟨-, s1, o1, h1, e1, hr1, rfl⟩ := run_uncons hr
  clear hr
  simp only [step, Option.some.injEq, Prod.mk.injEq] at e1
  obtain ⟨rfl, rfl⟩ := e1
  obtain ⟨en2, s2, o2, h2, e2, hr2, rfl⟩ := run_uncons hr1
  clear hr1
  simp only [step, Option.some.injEq, Prod.mk.injEq] at e2
  obtain ⟨rfl, rfl⟩ := e2
  obtain ⟨-, s3, o3, h3, e3, hr3, rfl⟩ := run_uncons hr2
  clear hr2
  obtain ⟨-, s4, o4, h4, e4, hr4, rfl⟩ := run_uncons hr3
  clear hr3
  cases hr4
  have b1 := base_open v false
  have b2 := base_same (s' := { s with readers := s.readers ++ [{ fromHead := false }], users := s.users ++ [m] })
    (e := .register m) (o := .unit) b1 rfl (by simpa [pushes] using b1.core) nofun rfl nofun rfl
  have get1 : (s.readers ++ [({ fromHead := false } : Rd)])[m]? = some { fromHead := false } := by
    rw [← hmr, List.getElem?_append_right (Nat.le_refl _)]; simp
  obtain ⟨r3, o3', f1, b3, safe3, -, -, -, -, hb3, -⟩ := reader_step b2 get1 nofun nofun
  have hr3 := hb3 rfl
  subst hr3
  simp only [step, get1, Option.bind_some] at e3
  rw [f1] at e3
  cases e3
  have get2 : (setR { s with readers := s.readers ++ [{ fromHead := false }], users := s.users ++ [m] } m
      ⟨false, none, .looked (Lk.tail s.q)⟩).readers[m]? = some ⟨false, none, .looked (Lk.tail s.q)⟩ := by
    simp only [setR]
    rw [List.getElem?_set, if_pos rfl, if_pos (by simp; omega)]
  simp only [Bool.false_eq_true, if_false] at b3 safe3 e4 f1
  obtain ⟨r4, o4', f2, b4, -, -, -, -, hb4, -⟩ := reader_step b3 get2 safe3 nofun
  have hr4 := hb4 _ rfl
  subst hr4
  simp only [step, get2, Option.bind_some] at e4
  rw [f2] at e4
  cases e4
  have htail : Lk.tail s.q = (pushed h).length := core_tail v.core
  have hpc : isChk s.wpc = false := by
    simp only [enabled, pcOf, get1, Option.map_some, Bool.and_eq_true, Bool.not_eq_true'] at en2
    exact en2.2
  have hfinal : setR (setR { s with readers := s.readers ++ [{ fromHead := false }], users := s.users ++ [m] } m
      ⟨false, none, .looked (Lk.tail s.q)⟩) m ⟨false, some (Lk.tail s.q), .top⟩ =
      { s with readers := s.readers ++ [⟨false, some (pushed h).length, .top⟩], users := s.users ++ [m] } := by
    simp only [setR, List.set_set, htail]
    rw [List.set_append, if_neg (by omega), hmr, Nat.sub_self]
    rfl
  rw [hfinal] at b4 ⊢
  obtain ⟨k, hk⟩ : ∃ k, s.wcur = some k := by
    cases hc : s.wcur with
    | none => exact absurd hc (hwat hwt)
    | some k => exact ⟨k, rfl⟩
  have hkn := WI_cur w hk
  have hpu : ∀ (x : List (Ev × Out)), (∀ y ∈ x, pushes y.1 = []) → pushed (h ++ x) = pushed h := by
    intro x hx
    rw [pushed_append]
    have : pushed x = [] := by
      rw [pushed, List.filterMap_eq_nil_iff]
      intro y hy
      have := hx y hy
      obtain ⟨e, o⟩ := y
      cases e <;> simp_all [pushes]
    rw [this, List.append_nil]
  simp only [List.append_assoc, List.cons_append, List.nil_append, rev] at b4
  refine ⟨b4, ?_, ⟨?_, ?_⟩, fun _ => by simp [hk], fun h0 => by simp [hk] at h0, by rw [hpu _ (by simp [pushes])]; exact hsz,
    by rw [hpu _ (by simp [pushes])]; exact hlim⟩
  · rw [hpu _ (by simp [pushes])]
    exact w
  · intro j rj hj hncj
    by_cases hjl : j < s.readers.length
    · simp only [List.getElem?_append_left hjl] at hj
      obtain ⟨g1, g2⟩ := c.reg j rj hj hncj
      exact ⟨List.mem_append_left _ g1, g2⟩
    · simp only [List.getElem?_append_right (Nat.le_of_not_lt hjl)] at hj
      have hje : j = m := by
        have := (List.getElem?_eq_some_iff.1 hj).1
        simp at this; omega
      subst hje
      simp [hmr] at hj
      subst hj
      exact ⟨by simp, _, rfl, k, hk, hkn.2⟩
  · have hp := c.past
    cases hwp : s.wpc with
    | chk b j => rw [hwp] at hpc; cases hpc
    | pass b =>
      rw [hwp] at hp
      simp only [WI, hwp, hk] at w
      intro i hi
      simp only at hi
      intro r hr hnc d hd k' hk'
      simp only at hr hk'
      rw [hk] at hk'; cases hk'
      by_cases hil : i < s.readers.length
      · rw [List.getElem?_append_left hil] at hr
        have hiu : i ∈ s.users := (c.reg i r hr hnc).1
        exact hp i hiu r hr hnc d hd k hk
      · rw [List.getElem?_append_right (Nat.le_of_not_lt hil)] at hr
        have := List.mem_of_getElem? hr
        simp only [List.mem_singleton] at this
        subst this
        cases hd
        omega
    | _ => trivial

private theorem calm_inv {sz : Nat → Nat} {m : Nat} {h : List (Ev × Out)} {s : L} (H : Calm sz m h s) : ∃ p, CalmI sz h s p := by
  induction H with
  | nil => exact ⟨0, ⟨core_create, rfl, nofun, fun i _ => ⟨rfl, by rintro ⟨x, hx, _⟩; cases hx⟩, rfl⟩, trivial,
      ⟨nofun, trivial⟩, nofun, fun _ => rfl, fun _ _ => rfl, fun _ _ _ _ => Nat.zero_le _⟩
  | snoc H hp en hs ih =>
    obtain ⟨p, g⟩ := ih
    obtain ⟨s1, o1, p', e1, g1⟩ := calm_step g hp en
    rw [e1] at hs
    cases hs
    exact ⟨p', g1⟩
  | attach H hw hr ih =>
    obtain ⟨p, g⟩ := ih
    exact ⟨p, calm_attach g hw hr⟩

private theorem calm_hist {sz : Nat → Nat} {m : Nat} {h : List (Ev × Out)} {s : L} (H : Calm sz m h s) : Hist sz m h s := by
  induction H with
  | nil => exact .nil
  | snoc H hp en hs ih => exact ih.snoc en hs
  | attach H hw hr ih => exact run_hist ih hr

private theorem calm_run {sz : Nat → Nat} {m : Nat} : ∀ {es : List Ev} {h : List (Ev × Out)} {s s' : L} {h' : List (Ev × Out)},
    Calm sz m h s → (∀ e ∈ es, plain e = true) → run sz s es = some (s', h') → Calm sz m (h ++ h') s'
  | [], h, s, s', h', H, _, hr => by
    cases hr
    rw [List.append_nil]
    exact H
  | e :: es, h, s, s', h', H, hp, hr => by
    obtain ⟨en, s1, o, h1, hs, hr1, rfl⟩ := run_uncons hr
    have := calm_run (H.snoc (hp e (by simp)) en hs) (fun x hx => hp x (by simp [hx])) hr1
    rw [List.append_assoc] at this
    exact this

/-! ### A reader that is not closed gets on -/

private theorem rstep_open {s s' : L} {i : Nat} {r : Rd} {o : Out} (hr : s.readers[i]? = some r) (hs : rstep s i r = some (s', o))
    {j : Nat} {r' : Rd} (hj : s'.readers[j]? = some r') (hc : r'.pc = .closed) :
    ∃ r0, s.readers[j]? = some r0 ∧ r0.pc = .closed := by
  have key : ∀ (x : Rd), x.pc ≠ .closed → (setR s i x).readers[j]? = some r' → ∃ r0, s.readers[j]? = some r0 ∧ r0.pc = .closed := by
    intro x hx hj
    simp only [setR] at hj
    rw [List.getElem?_set] at hj
    by_cases hij : i = j
    · subst hij
      rw [if_pos rfl, if_pos (List.getElem?_eq_some_iff.1 hr).1] at hj
      cases hj
      exact absurd hc hx
    · rw [if_neg hij] at hj
      exact ⟨r', hj, hc⟩
  obtain ⟨f, cur, pc⟩ := r
  cases pc with
  | boot => cases hs; exact key _ (by nofun) hj
  | looked a => cases hs; exact key _ (by nofun) hj
  | top =>
    cases cur with
    | none => cases hs; exact ⟨r', hj, hc⟩
    | some c =>
      simp only [rstep] at hs
      cases hn : Lk.next s.q c with
      | none => rw [hn] at hs; cases hs
      | some b =>
        rw [hn, Option.map_some] at hs
        cases b with
        | none => cases hs; exact ⟨r', hj, hc⟩
        | some b => cases hs; exact key _ (by nofun) hj
  | got b =>
    simp only [rstep] at hs
    cases hn : load s.q.heap b with
    | none => rw [hn] at hs; cases hs
    | some n => rw [hn, Option.map_some] at hs; cases hs; exact key _ (by nofun) hj
  | done b => cases hs; exact key _ (by nofun) hj
  | closed => cases hs; exact ⟨r', hj, hc⟩

private theorem closed_hist {sz : Nat → Nat} {m : Nat} {h : List (Ev × Out)} {s : L} (H : Hist sz m h s) :
    ∀ (i : Nat) r, s.readers[i]? = some r → r.pc = .closed → ∃ x ∈ h, x.1 = .close i := by
  induction H with
  | nil => nofun
  | @snoc h s e s' o H en hs ih =>
    intro i r hi hc
    have old : (∃ r0, s.readers[i]? = some r0 ∧ r0.pc = .closed) → ∃ x ∈ h ++ [(e, o)], x.1 = .close i := by
      rintro ⟨r0, h0, hc0⟩
      obtain ⟨x, hx, hxe⟩ := ih i r0 h0 hc0
      exact ⟨x, List.mem_append_left _ hx, hxe⟩
    rcases reader_cases (e := e) with ⟨j, he⟩ | he | ⟨a, rfl⟩ | ⟨f, rfl⟩ | ⟨j, rfl⟩ | ⟨j, rfl⟩ | rfl | rfl
    · have : ∃ r0, s.readers[j]? = some r0 ∧ rstep s j r0 = some (s', o) := by
        cases hr : s.readers[j]? with
        | none => rcases he with rfl | rfl | rfl | rfl | rfl <;> simp [step, hr] at hs
        | some r0 => exact ⟨r0, rfl, by rcases he with rfl | rfl | rfl | rfl | rfl <;> simpa [step, hr] using hs⟩
      obtain ⟨r0, hr0, hs0⟩ := this
      exact old (rstep_open hr0 hs0 hi hc)
    · have : s'.readers = s.readers := by
        rcases he with rfl | rfl | rfl
        · cases hw : wake s with
          | none => simp [step, hw] at hs
          | some t =>
            simp only [step, hw, Option.map_some, Option.some.injEq, Prod.mk.injEq] at hs
            rw [← hs.1]
            unfold wake at hw
            split at hw
            · cases hw; rfl
            · cases hn : Lk.headNext s.q with
              | none => rw [hn] at hw; cases hw
              | some b => rw [hn, Option.map_some] at hw; cases b <;> cases hw <;> rfl
        · cases hc : s.wcur with
          | none => simp [step, hc] at hs
          | some k =>
            cases hw : wtest s k with
            | none => simp [step, hc, hw] at hs
            | some t =>
              simp only [step, hc, hw, Option.bind_some, Option.map_some, Option.some.injEq, Prod.mk.injEq] at hs
              rw [← hs.1]
              unfold wtest at hw
              cases hn : Lk.next s.q k with
              | none => rw [hn] at hw; cases hw
              | some b => rw [hn, Option.map_some] at hw; cases b <;> cases hw <;> rfl
        · cases hp : s.wpc with
          | chk b k =>
            simp only [step, hp, Option.some.injEq, Prod.mk.injEq] at hs
            rw [← hs.1]
            unfold wcheck
            split
            · rfl
            · split <;> rfl
          | _ => simp only [step, hp, Option.some.injEq, Prod.mk.injEq] at hs; rw [← hs.1]
      exact old ⟨r, by rw [← this]; exact hi, hc⟩
    · cases hq : Lk.push s.q (some a) with
      | none => simp [step, hq] at hs
      | some q =>
        simp only [step, hq, Option.map_some, Option.some.injEq, Prod.mk.injEq] at hs
        rw [← hs.1] at hi
        exact old ⟨r, hi, hc⟩
    · simp only [step, Option.some.injEq, Prod.mk.injEq] at hs
      rw [← hs.1] at hi
      simp only at hi
      by_cases hil : i < s.readers.length
      · rw [List.getElem?_append_left hil] at hi
        exact old ⟨r, hi, hc⟩
      · rw [List.getElem?_append_right (Nat.le_of_not_lt hil)] at hi
        have := List.mem_of_getElem? hi
        simp only [List.mem_singleton] at this
        subst this
        cases hc
    · simp only [step, Option.some.injEq, Prod.mk.injEq] at hs
      rw [← hs.1] at hi
      exact old ⟨r, hi, hc⟩
    · simp only [step, Option.some.injEq, Prod.mk.injEq] at hs
      rw [← hs.1] at hi
      rcases close_get hi with ⟨rfl, -⟩ | ⟨-, h0⟩
      · exact ⟨_, List.mem_append_right _ (List.mem_singleton.2 rfl), rfl⟩
      · exact old ⟨r, h0, hc⟩
    · have : s'.readers = s.readers := by
        cases hp : s.wpc with
        | pass b =>
          cases hw : s.wcur with
          | none => simp [step, hp, hw] at hs
          | some k =>
            simp only [step, hp, hw, Option.bind_some] at hs
            unfold wdrop at hs
            cases hv : s.save with
            | all => rw [hv] at hs; cases hs; rfl
            | none_ =>
              rw [hv] at hs
              cases hq : Lk.pop s.q with
              | none => rw [hq] at hs; cases hs
              | some x => rw [hq] at hs; cases hs; rfl
            | size mx =>
              rw [hv] at hs
              cases hl : load s.q.heap k with
              | none => rw [hl] at hs; cases hs
              | some n =>
                simp only [hl, Option.bind_some] at hs
                split at hs
                · cases hq : Lk.pop s.q with
                  | none => rw [hq] at hs; cases hs
                  | some x => rw [hq] at hs; cases hs; rfl
                · cases hs; rfl
        | _ => simp only [step, hp, Option.some.injEq, Prod.mk.injEq] at hs; rw [← hs.1]
      exact old ⟨r, by rw [← this]; exact hi, hc⟩
    · cases hq : clear s with
      | none => simp [step, hq] at hs
      | some t =>
        simp only [step, hq, Option.map_some, Option.some.injEq, Prod.mk.injEq] at hs
        have : t.readers = s.readers := by
          unfold clear at hq
          split at hq
          · cases hq; rfl
          · cases hx : Lk.clear s.q with
            | none => rw [hx] at hq; cases hq
            | some x => rw [hx] at hq; cases hq; rfl
        rw [← hs.1, this] at hi
        exact old ⟨r, hi, hc⟩

/-- The thread of reader `i`. -/
def ofReader (i : Nat) (e : Ev) : Prop := e = .look i ∨ e = .set i ∨ e = .fetch i ∨ e = .recv i ∨ e = .adv i

private def Drains (sz : Nat → Nat) (h : List (Ev × Out)) (s : L) (i : Nat) : Prop :=
  ∃ es s' h', (∀ e ∈ es, ofReader i e) ∧ run sz s es = some (s', h') ∧ received i (h ++ h') = due i h

private theorem due_same {i : Nat} {h : List (Ev × Out)} {e : Ev} (o : Out) (hp : pushes e = []) (ho : opens e = []) :
    due i (h ++ [(e, o)]) = due i h := by
  unfold due
  rw [modes_snoc, ho, List.append_nil]
  split
  · rw [pushed_snoc, hp, List.append_nil]
  · rw [List.dropWhile_append]
    split
    · rename_i he
      rw [List.isEmpty_iff.1 he]
      have : ([(e, o)].dropWhile fun x => x.1 != .look i) = [] ∨ ([(e, o)].dropWhile fun x => x.1 != .look i) = [(e, o)] := by
        rw [List.dropWhile_cons]
        split
        · exact .inl rfl
        · exact .inr rfl
      rcases this with h1 | h1 <;> rw [h1]
      rw [pushed_one, hp]; rfl
    · rw [pushed_append, pushed_one, hp, List.append_nil]

private theorem drains_step {sz : Nat → Nat} {h : List (Ev × Out)} {s s1 : L} {i : Nat} {r : Rd} {o : Out}
    (hr : s.readers[i]? = some r) (hnc : r.pc ≠ .closed) (hs : rstep s i r = some (s1, o))
    (d : Drains sz (h ++ [(rev r.pc i, o)]) s1 i) : Drains sz h s i := by
  obtain ⟨es, s2, h2, h3, h4, h5⟩ := d
  have hpc : pcOf s i = some r.pc := by rw [pcOf, hr]; rfl
  refine ⟨rev r.pc i :: es, s2, (rev r.pc i, o) :: h2, ?_, run_cons ?_ ?_ h4, ?_⟩
  · intro e he
    rcases List.mem_cons.1 he with rfl | he
    · unfold ofReader
      cases r.pc <;> simp [rev]
    · exact h3 e he
  · cases hp : r.pc <;> simp_all [rev, enabled]
  · cases hp : r.pc <;> rw [hp] at hnc <;> simp [rev, step, hr, hs]
  · rw [List.append_assoc] at h5
    rw [show h ++ (rev r.pc i, o) :: h2 = h ++ ([(rev r.pc i, o)] ++ h2) from rfl, h5]
    exact due_same o (by cases r.pc <;> rfl) (by cases r.pc <;> rfl)

private theorem set_get {s : L} {i : Nat} {r r' : Rd} (hr : s.readers[i]? = some r) : (setR s i r').readers[i]? = some r' := by
  simp only [setR]
  rw [List.getElem?_set, if_pos rfl, if_pos (List.getElem?_eq_some_iff.1 hr).1]

private theorem pushed_rev {h : List (Ev × Out)} (pc : RPc) (i : Nat) (o : Out) : pushed (h ++ [(rev pc i, o)]) = pushed h := by
  rw [pushed_snoc]
  cases pc <;> simp [rev, pushes]

private theorem drains_top (sz : Nat → Nat) {i p : Nat} : ∀ (d : Nat) {h : List (Ev × Out)} {s : L} {f : Bool} {c : Nat}, Base h s p →
    s.readers[i]? = some ⟨f, some c, .top⟩ → p ≤ c → (pushed h).length - c = d → Drains sz h s i
  | 0, h, s, f, c, v, hr, hpc, hd => by
    obtain ⟨c', hc', st, h1⟩ := v.rd i _ hr
    cases hc'
    refine ⟨[], s, [], nofun, rfl, ?_⟩
    rw [List.append_nil, h1.due, h1.rcv, List.take_of_length_le]
    rw [List.length_drop]
    have := h1.kn
    omega
  | d + 1, h, s, f, c, v, hr, hpc, hd => by
    obtain ⟨r1, o1, e1, b1, -, -, -, -, -, -, t1, -, -⟩ := reader_step v hr (fun c' hc' => by cases hc'; exact hpc) nofun
    have t1 := (t1 c rfl rfl).2
    rw [if_pos (by omega)] at t1
    subst t1
    refine drains_step hr nofun e1 ?_
    have g1 : (setR s i ⟨f, some c, .got (c + 1)⟩).readers[i]? = some ⟨f, some c, .got (c + 1)⟩ := set_get hr
    obtain ⟨r2, o2, e2, b2, -, -, -, -, -, -, -, t2, -⟩ := reader_step b1 g1 (fun c' hc' => by cases hc'; exact hpc) nofun
    have t2 := (t2 c rfl rfl).2
    subst t2
    refine drains_step g1 nofun e2 ?_
    have g2 := set_get (r' := ⟨f, some c, .done (c + 1)⟩) g1
    obtain ⟨r3, o3, e3, b3, -, -, -, -, -, -, -, -, t3⟩ := reader_step b2 g2 (fun c' hc' => by cases hc'; exact hpc) nofun
    have t3 := (t3 _ rfl).2
    subst t3
    refine drains_step g2 nofun e3 ?_
    refine drains_top sz d b3 (set_get g2) (by omega) ?_
    rw [pushed_rev, pushed_rev, pushed_rev]
    omega

private theorem drains (sz : Nat → Nat) {i p : Nat} {h : List (Ev × Out)} {s : L} {r : Rd} (v : Base h s p)
    (hr : s.readers[i]? = some r) (hs : RSafe p r) (hnc : r.pc ≠ .closed) : Drains sz h s i := by
  obtain ⟨f, cur, pc⟩ := r
  have hri := v.rd i _ hr
  have done : ∀ {h : List (Ev × Out)} {s : L} {c : Nat}, Base h s p → s.readers[i]? = some ⟨f, some c, .done (c + 1)⟩ → p ≤ c →
      Drains sz h s i := by
    intro h s c v g2 hpc
    obtain ⟨r3, o3, e3, b3, -, -, -, -, -, -, -, -, t3⟩ := reader_step v g2 (fun c' hc' => by cases hc'; exact hpc) nofun
    have t3 := (t3 _ rfl).2
    subst t3
    exact drains_step g2 nofun e3 (drains_top sz _ b3 (set_get g2) (by omega) rfl)
  have looked : ∀ {h : List (Ev × Out)} {s : L} {a : Nat}, Base h s p → s.readers[i]? = some ⟨f, none, .looked a⟩ → p ≤ a →
      Drains sz h s i := by
    intro h s a v g hpa
    obtain ⟨r3, o3, e3, b3, -, -, -, -, t3, -⟩ := reader_step v g hpa nofun
    have t3 := t3 _ rfl
    subst t3
    exact drains_step g nofun e3 (drains_top sz _ b3 (set_get g) (by omega) rfl)
  cases pc with
  | closed => exact absurd rfl hnc
  | boot =>
    obtain ⟨h1, -⟩ := hri
    simp only at h1
    subst h1
    obtain ⟨r3, o3, e3, b3, s3, -, -, -, -, t3, -⟩ := reader_step v hr hs nofun
    have t3 := t3 rfl
    subst t3
    exact drains_step hr nofun e3 (looked b3 (set_get hr) s3)
  | looked a =>
    obtain ⟨h1, -⟩ := hri
    simp only at h1
    subst h1
    exact looked v hr hs
  | top =>
    obtain ⟨c, hc, -⟩ := hri
    simp only at hc
    subst hc
    exact drains_top sz _ v hr (hs c rfl) rfl
  | got b =>
    obtain ⟨c, hc, hb, -⟩ := hri
    simp only at hc
    subst hc hb
    obtain ⟨r2, o2, e2, b2, -, -, -, -, -, -, -, t2, -⟩ := reader_step v hr hs nofun
    have t2 := (t2 c rfl rfl).2
    subst t2
    exact drains_step hr nofun e2 (done b2 (set_get hr) (hs c rfl))
  | done b =>
    obtain ⟨c, hc, hb, -⟩ := hri
    simp only at hc
    subst hc hb
    exact done v hr (hs c rfl)

private theorem reader_of {sz : Nat → Nat} {m : Nat} {h : List (Ev × Out)} {s : L} {p i : Nat} (H : Hist sz m h s) (v : Base h s p)
    (hi : i < (modes h).length) (hc : ∀ x ∈ h, x.1 ≠ .close i) : ∃ r, s.readers[i]? = some r ∧ r.pc ≠ .closed := by
  have hil : i < s.readers.length := by rw [← v.modes, List.length_map] at hi; exact hi
  refine ⟨_, List.getElem?_eq_getElem hil, fun hpc => ?_⟩
  obtain ⟨x, hx, he⟩ := closed_hist H i _ (List.getElem?_eq_getElem hil) hpc
  exact hc x hx he

/-! ### C37 -/

/-- C37 (a list that keeps everything, not cleared): no step of any thread uses a freed node, and nothing is freed.
Missing: clearing the list, see `C37_clear_violated`. -/
theorem C37_all_defined_partial (sz : Nat → Nat) {h : List (Ev × Out)} {s : L} (H : Hist sz 0 h s)
    (hn : ∀ x ∈ h, x.1 ≠ .clear) : (∀ e, enabled s e = true → e ≠ .clear → (step sz s e).isSome) ∧ freed h = [] := by
  obtain ⟨q, hsv⟩ := quiet_hist (by decide) H hn (.inl rfl)
  refine ⟨fun e en he => ?_, by rw [q.base.free]; rfl⟩
  obtain ⟨s', o, e1, -⟩ := quiet_step q en he (fun m hm => by rw [hsv] at hm; cases hm)
  rw [e1]; rfl

/-- C37 (a list that keeps everything, not cleared): at every point of every schedule, what reached the handler of a
reader is the beginning of what it is to receive: every message once, in the order in which they were put in. -/
theorem C37_all_order_partial (sz : Nat → Nat) {h : List (Ev × Out)} {s : L} (H : Hist sz 0 h s)
    (hn : ∀ x ∈ h, x.1 ≠ .clear) (i : Nat) : ∃ rest, due i h = received i h ++ rest :=
  base_due (quiet_hist (by decide) H hn (.inl rfl)).1.base i

/-- C37 (a list that keeps everything, not cleared): from every point of every schedule, the thread of a reader that is
not closed, going on, brings the handler all the reader is to receive. -/
theorem C37_all_complete_partial (sz : Nat → Nat) {h : List (Ev × Out)} {s : L} (H : Hist sz 0 h s)
    (hn : ∀ x ∈ h, x.1 ≠ .clear) {i : Nat} (hi : i < (modes h).length) (hc : ∀ x ∈ h, x.1 ≠ .close i) :
    ∃ es s' h', (∀ e ∈ es, ofReader i e) ∧ run sz s es = some (s', h') ∧ received i (h ++ h') = due i h := by
  obtain ⟨q, -⟩ := quiet_hist (by decide) H hn (.inl rfl)
  obtain ⟨r, hr, hnc⟩ := reader_of H q.base hi hc
  exact drains sz q.base hr (safe_zero r) hnc

/-- C37 (a list with a size, not cleared, as long as the messages put in do not exceed it): the same. -/
theorem C37_size_partial (sz : Nat → Nat) {m : Nat} (hm : 2 ≤ m) {h : List (Ev × Out)} {s : L} (H : Hist sz m h s)
    (hn : ∀ x ∈ h, x.1 ≠ .clear) (hs : ((pushed h).map sz).sum ≤ max m 1024) :
    freed h = [] ∧ ∀ i, (∃ rest, due i h = received i h ++ rest) ∧
      (i < (modes h).length → (∀ x ∈ h, x.1 ≠ .close i) →
        ∃ es s' h', (∀ e ∈ es, ofReader i e) ∧ run sz s es = some (s', h') ∧ received i (h ++ h') = due i h) := by
  have hs' : total sz (pushed h) ≤ (if m < 1024 then 1024 else m) := by
    have : total sz (pushed h) = ((pushed h).map sz).sum := rfl
    rw [this]
    split <;> omega
  obtain ⟨q, -⟩ := quiet_hist (by omega) H hn (.inr hs')
  refine ⟨by rw [q.base.free]; rfl, fun i => ⟨base_due q.base i, fun hi hc => ?_⟩⟩
  obtain ⟨r, hr, hnc⟩ := reader_of H q.base hi hc
  exact drains sz q.base hr (safe_zero r) hnc

/-! ### C38 -/

/-- C38 (readers for new messages only, opened without a step of another thread in between once the watcher is under
way; not cleared): no step uses a freed node.  Missing: the other ways to open a reader, see the violations below. -/
theorem C38_defined_partial (sz : Nat → Nat) {m : Nat} {h : List (Ev × Out)} {s : L} (H : Calm sz m h s) {e : Ev}
    (hp : plain e = true) (en : enabled s e = true) : (step sz s e).isSome := by
  obtain ⟨p, g⟩ := calm_inv H
  obtain ⟨s', o, p', e1, -⟩ := calm_step g hp en
  rw [e1]; rfl

/-- C38 (same schedules): what the list let go of are the oldest messages, in order and each once, and what a reader
that is not closed has still to receive is all among the messages the list keeps. -/
theorem C38_kept_partial (sz : Nat → Nat) {m : Nat} {h : List (Ev × Out)} {s : L} (H : Calm sz m h s) :
    ∃ gone kept, pushed h = gone ++ kept ∧ freed h = gone.map some ∧
      ∀ i, (∃ rest, due i h = received i h ++ rest ∧
        (i < (modes h).length → (∀ x ∈ h, x.1 ≠ .close i) → rest <:+ kept)) := by
  obtain ⟨p, g⟩ := calm_inv H
  refine ⟨(pushed h).take p, (pushed h).drop p, (List.take_append_drop _ _).symm, g.base.free, fun i => ?_⟩
  by_cases hh : i < (modes h).length ∧ ∀ x ∈ h, x.1 ≠ .close i
  · obtain ⟨r, hr, hnc⟩ := reader_of (calm_hist H) g.base hh.1 hh.2
    have hsafe := ci_safe g.base g.wi g.ci hr
    have hri := g.base.rd i r hr
    have key : ∀ {k st}, St h i k st → p ≤ k → ∃ rest, due i h = received i h ++ rest ∧
        (i < (modes h).length → (∀ x ∈ h, x.1 ≠ .close i) → rest <:+ (pushed h).drop p) := by
      intro k st v hpk
      refine ⟨(pushed h).drop k, ?_, fun _ _ => ?_⟩
      · rw [v.due, v.rcv]
        have : (pushed h).drop k = ((pushed h).drop st).drop (k - st) := by
          rw [List.drop_drop]; congr 1; have := v.le; omega
        rw [this, List.take_append_drop]
      · have : (pushed h).drop k = ((pushed h).drop p).drop (k - p) := by
          rw [List.drop_drop]; congr 1; omega
        rw [this]
        exact List.drop_suffix _ _
    obtain ⟨-, c, hcur, -⟩ := g.ci.reg i r hr hnc
    obtain ⟨f, cur, pc⟩ := r
    simp only at hcur
    subst hcur
    cases pc with
    | closed => exact absurd rfl hnc
    | boot => cases hri.1
    | looked a => cases hri.1
    | top => obtain ⟨c', hc', st, hst⟩ := hri; cases hc'; exact key hst (hsafe _ rfl)
    | got b => obtain ⟨c', hc', -, -, st, hst⟩ := hri; cases hc'; exact key hst (hsafe _ rfl)
    | done b =>
      obtain ⟨c', hc', hb, st, hst⟩ := hri
      cases hc'
      have := hsafe _ rfl
      exact key hst (by omega)
  · obtain ⟨w, hw⟩ := base_due g.base i
    exact ⟨w, hw, fun h1 h2 => absurd ⟨h1, h2⟩ hh⟩

/-- C38 (same schedules): from every point, the thread of a reader that is not closed, going on, brings the handler all
the reader is to receive. -/
theorem C38_complete_partial (sz : Nat → Nat) {m : Nat} {h : List (Ev × Out)} {s : L} (H : Calm sz m h s) {i : Nat}
    (hi : i < (modes h).length) (hc : ∀ x ∈ h, x.1 ≠ .close i) :
    ∃ es s' h', (∀ e ∈ es, ofReader i e) ∧ run sz s es = some (s', h') ∧ received i (h ++ h') = due i h := by
  obtain ⟨p, g⟩ := calm_inv H
  obtain ⟨r, hr, hnc⟩ := reader_of (calm_hist H) g.base hi hc
  exact drains sz g.base hr (ci_safe g.base g.wi g.ci hr) hnc

private theorem rstep_save {s s' : L} {i : Nat} {r : Rd} {o : Out} (hs : rstep s i r = some (s', o)) : s'.save = s.save := by
  obtain ⟨f, cur, pc⟩ := r
  cases pc with
  | boot => cases hs; rfl
  | looked a => cases hs; rfl
  | top =>
    cases cur with
    | none => cases hs; rfl
    | some c =>
      simp only [rstep, Option.map_eq_some_iff] at hs
      obtain ⟨b, -, hb⟩ := hs
      cases b <;> cases hb <;> rfl
  | got b =>
    simp only [rstep, Option.map_eq_some_iff] at hs
    obtain ⟨n, -, hn⟩ := hs
    cases hn; rfl
  | done b => cases hs; rfl
  | closed => cases hs; rfl

private theorem step_save {sz : Nat → Nat} {s s' : L} {e : Ev} {o : Out} (hs : step sz s e = some (s', o)) : s'.save = s.save := by
  have rd : ∀ i, (s.readers[i]?.bind (rstep s i)) = some (s', o) → s'.save = s.save := by
    intro i hi
    simp only [Option.bind_eq_some_iff] at hi
    obtain ⟨r, -, hr⟩ := hi
    exact rstep_save hr
  cases e with
  | look i => exact rd i hs
  | set i => exact rd i hs
  | fetch i => exact rd i hs
  | recv i => exact rd i hs
  | adv i => exact rd i hs
  | push a =>
    simp only [step, Option.map_eq_some_iff] at hs
    obtain ⟨q, -, hq⟩ := hs
    cases hq; rfl
  | openR f => cases hs; rfl
  | register i => cases hs; rfl
  | close i => cases hs; rfl
  | wake =>
    simp only [step, Option.map_eq_some_iff] at hs
    obtain ⟨t, hw, ht⟩ := hs
    cases ht
    unfold wake at hw
    split at hw
    · cases hw; rfl
    · simp only [Option.map_eq_some_iff] at hw
      obtain ⟨b, -, hb⟩ := hw
      cases b <;> cases hb <;> rfl
  | wtest =>
    simp only [step, Option.map_eq_some_iff, Option.bind_eq_some_iff] at hs
    obtain ⟨k, -, t, hw, ht⟩ := hs
    cases ht
    simp only [wtest, Option.map_eq_some_iff] at hw
    obtain ⟨b, -, hb⟩ := hw
    cases b <;> cases hb <;> rfl
  | wcheck =>
    simp only [step] at hs
    split at hs
    · cases hs
      unfold wcheck
      split
      · rfl
      · split <;> rfl
    · cases hs; rfl
  | wdrop =>
    simp only [step] at hs
    split at hs
    · simp only [Option.bind_eq_some_iff] at hs
      obtain ⟨k, -, hd⟩ := hs
      unfold wdrop at hd
      cases hv : s.save with
      | all => rw [hv] at hd; cases hd; rfl
      | none_ =>
        rw [hv] at hd
        simp only [Option.map_eq_some_iff] at hd
        obtain ⟨q, -, hq⟩ := hd
        cases hq; rfl
      | size mx =>
        rw [hv] at hd
        simp only [Option.bind_eq_some_iff] at hd
        obtain ⟨n, -, hn⟩ := hd
        split at hn
        · simp only [Option.map_eq_some_iff] at hn
          obtain ⟨q, -, hq⟩ := hn
          cases hq; rfl
        · cases hn; rfl
    · cases hs; rfl
  | clear =>
    simp only [step, Option.map_eq_some_iff] at hs
    obtain ⟨t, hw, ht⟩ := hs
    cases ht
    unfold clear at hw
    split at hw
    · cases hw; rfl
    · simp only [Option.map_eq_some_iff] at hw
      obtain ⟨q, -, hq⟩ := hw
      cases hq; rfl

private theorem hist_save {sz : Nat → Nat} {m : Nat} {h : List (Ev × Out)} {s : L} (H : Hist sz m h s) : s.save = saveMode m := by
  induction H with
  | nil => rfl
  | snoc H en hs ih => rw [step_save hs, ih]

/-! ### C74 -/

/-- C74 (same schedules, messages of one size): when the watcher stands at the newest message, the list keeps no more
than the size it was created with and the newest message.  Missing: messages of different sizes, see `C74_violated`. -/
theorem C74_limit_partial (sz : Nat → Nat) {m : Nat} (hm : 2 ≤ m) {h : List (Ev × Out)} {s : L} (H : Calm sz m h s) {z : Nat}
    (hz : ∀ o ∈ pushed h, sz o = z) (hw : s.wcur = some (pushed h).length) :
    ∃ gone kept, pushed h = gone ++ kept ∧ freed h = gone.map some ∧ (kept.map sz).sum ≤ max m 1024 + z := by
  obtain ⟨p, g⟩ := calm_inv H
  have hsv : s.save = saveMode m := hist_save (calm_hist H)
  have hsv' : s.save = .size (if m < 1024 then 1024 else m) := by
    rw [hsv, saveMode, if_neg (by omega), if_neg (by omega)]
  refine ⟨(pushed h).take p, (pushed h).drop p, (List.take_append_drop _ _).symm, g.base.free, ?_⟩
  have h1 := g.size _ hsv'
  have h2 := g.lim _ z hsv' hz
  rw [hw, Option.getD_some] at h1
  obtain ⟨h3, -⟩ := WI_cur g.wi hw
  have h4 : (pushed h).drop p = ((pushed h).take ((pushed h).length - 1)).drop p ++ [(pushed h)[(pushed h).length - 1]] := by
    rw [← List.drop_append_of_le_length (by rw [List.length_take]; omega)]
    have := List.take_add_one (l := pushed h) (i := (pushed h).length - 1)
    rw [show (pushed h).length - 1 + 1 = (pushed h).length by omega, List.getElem?_eq_getElem (by omega), List.take_length] at this
    rw [show [(pushed h)[(pushed h).length - 1]] = (some (pushed h)[(pushed h).length - 1]).toList from rfl, ← this]
  have h5 := hz _ (List.getElem_mem (show (pushed h).length - 1 < (pushed h).length by omega))
  rw [h4, List.map_append, List.sum_append]
  simp only [List.map_cons, List.map_nil, List.sum_cons, List.sum_nil, h5]
  rw [h1] at h2
  simp only [total] at h2
  split at h2 <;> omega

/-! ### Cases that meet the hypotheses -/

/-- Two readers of a list that keeps everything, a message put in between their openings. -/
example : ∃ h s, Hist (fun _ => 100) 0 h s ∧ (∀ x ∈ h, x.1 ≠ .clear) ∧ due 0 h = [7, 8, 9] ∧ due 1 h = [9] ∧
    received 0 h = [7, 8] ∧ received 1 h = [9] ∧ (∀ x ∈ h, x.1 ≠ .close 0) := by
  have h1 : (run (fun _ => 100) (create 0) [.openR true, .push 7, .register 0, .look 0, .push 8, .set 0, .fetch 0, .openR false,
    .look 1, .recv 0, .set 1, .adv 0, .push 9, .fetch 1, .register 1, .fetch 0, .recv 1, .recv 0]).isSome := by decide +kernel
  refine ⟨_, _, run_hist .nil (Option.some_get h1).symm, ?_⟩
  decide +kernel

/-- A list of a size that the messages reach exactly. -/
example : ∃ h s, Hist (fun _ => 512) 1000 h s ∧ (∀ x ∈ h, x.1 ≠ .clear) ∧ ((pushed h).map fun _ => 512).sum = max 1000 1024 ∧
    due 0 h = [7, 8] ∧ received 0 h = [7] := by
  have h1 : (run (fun _ => 512) (create 1000) [.openR true, .push 7, .push 8, .register 0, .wake, .look 0, .wtest, .wcheck,
    .wcheck, .wdrop, .wtest, .set 0, .fetch 0, .recv 0]).isSome := by decide +kernel
  refine ⟨_, _, run_hist .nil (Option.some_get h1).symm, ?_⟩
  decide +kernel

/-- Steps, the opening of the first reader, and more steps. -/
private def three (sz : Nat → Nat) (m : Nat) (es es' : List Ev) : Option (L × List (Ev × Out)) :=
  (run sz (create m) es).bind fun a => if watching a.2 ∧ modes a.2 = [] then
    (run sz a.1 [.openR false, .register 0, .look 0, .set 0]).bind fun b =>
      (run sz b.1 es').map fun c => (c.1, a.2 ++ b.2 ++ c.2)
  else none

private theorem three_calm {sz : Nat → Nat} {m : Nat} {es es' : List Ev} {s : L} {h : List (Ev × Out)}
    (h1 : ∀ e ∈ es ++ es', plain e = true) (h2 : three sz m es es' = some (s, h)) : Calm sz m h s := by
  unfold three at h2
  cases ha : run sz (create m) es with
  | none => rw [ha] at h2; cases h2
  | some a =>
    rw [ha, Option.bind_some] at h2
    by_cases hw : watching a.2 ∧ modes a.2 = []
    · rw [if_pos hw] at h2
      have H1 := calm_run .nil (fun e he => h1 e (List.mem_append_left _ he)) ha
      rw [List.nil_append] at H1
      cases hb : run sz a.1 [.openR false, .register 0, .look 0, .set 0] with
      | none => rw [hb] at h2; cases h2
      | some b =>
        rw [hb, Option.bind_some] at h2
        cases hc : run sz b.1 es' with
        | none => rw [hc] at h2; cases h2
        | some c =>
          rw [hc, Option.map_some] at h2
          cases h2
          exact calm_run (H1.attach hw.1 (by rw [hw.2]; exact hb)) (fun e he => h1 e (List.mem_append_right _ he)) hc
    · rw [if_neg hw] at h2
      cases h2

/-- A list that keeps nothing: the reader gets the messages put in after it was opened, and older ones are freed. -/
example : ∃ h s, Calm (fun _ => 100) 1 h s ∧ pushed h = [1, 2, 3] ∧ freed h = [some 1] ∧ due 0 h = [2, 3] ∧
    received 0 h = [2] ∧ (∀ x ∈ h, x.1 ≠ .close 0) := by
  have h1 : (three (fun _ => 100) 1 [.push 1, .wake, .wtest] [.push 2, .push 3, .fetch 0, .recv 0, .adv 0, .wake, .wtest,
    .wcheck, .wcheck, .wdrop]).isSome := by decide +kernel
  refine ⟨_, _, three_calm (by decide) (Option.some_get h1).symm, ?_⟩
  decide +kernel

/-! ### What fails -/

/-- C38 fails: a list that keeps nothing, a reader from the start, registered and under way.  The watcher compares the
place of the reader with its own, finds them different, and frees the node the reader stands on, which is behind its
own: the next step of the reader uses a freed node. -/
theorem C38_head_violated : ∃ h s, Hist (fun _ => 100) 1 h s ∧ enabled s (.fetch 0) = true ∧
    step (fun _ => 100) s (.fetch 0) = none ∧ h.map (·.1) = [.push 1, .push 2, .wake, .openR true, .register 0, .look 0, .set 0,
      .wtest, .wcheck, .wcheck, .wdrop] := by
  have h1 : (run (fun _ => 100) (create 1) [.push 1, .push 2, .wake, .openR true, .register 0, .look 0, .set 0, .wtest,
    .wcheck, .wcheck, .wdrop]).isSome := by decide +kernel
  refine ⟨_, _, run_hist .nil (Option.some_get h1).symm, ?_⟩
  decide +kernel

/-- C38 fails: the same in a list of 16 MB with a reader from the start, as the server makes for its messages
(workers/sisdb/sisdb_server.c:92-95), and messages of 20 MB. -/
theorem C38_server_list_violated : ∃ h s, Hist (fun _ => 20000000) 16777216 h s ∧ enabled s (.fetch 0) = true ∧
    step (fun _ => 20000000) s (.fetch 0) = none ∧ freed h = [some 1] ∧ received 0 h = [] ∧ due 0 h = [1, 2] := by
  have h1 : (run (fun _ => 20000000) (create 16777216) [.push 1, .push 2, .wake, .openR true, .register 0, .look 0, .set 0, .wtest,
    .wcheck, .wcheck, .wdrop]).isSome := by decide +kernel
  refine ⟨_, _, run_hist .nil (Option.some_get h1).symm, ?_⟩
  decide +kernel

/-- C38 fails: a reader for new messages opened while the list was empty, registered and under way before the first
message. -/
theorem C38_tail_violated : ∃ h s, Hist (fun _ => 100) 1 h s ∧ enabled s (.fetch 0) = true ∧
    step (fun _ => 100) s (.fetch 0) = none ∧ h.map (·.1) = [.openR false, .register 0, .look 0, .set 0, .push 1, .push 2, .wake,
      .wtest, .wcheck, .wcheck, .wdrop] := by
  have h1 : (run (fun _ => 100) (create 1) [.openR false, .register 0, .look 0, .set 0, .push 1, .push 2, .wake,
      .wtest, .wcheck, .wcheck, .wdrop]).isSome := by decide +kernel
  refine ⟨_, _, run_hist .nil (Option.some_get h1).symm, ?_⟩
  decide +kernel

/-- C38 fails: a reader whose thread runs but is not registered yet is not asked. -/
theorem C38_unregistered_violated : ∃ h s, Hist (fun _ => 100) 1 h s ∧ enabled s (.fetch 0) = true ∧
    step (fun _ => 100) s (.fetch 0) = none ∧ h.map (·.1) = [.push 1, .wake, .openR false, .look 0, .set 0, .push 2, .push 3, .wtest,
      .wcheck, .wdrop, .wtest, .wcheck, .wdrop] := by
  have h1 : (run (fun _ => 100) (create 1) [.push 1, .wake, .openR false, .look 0, .set 0, .push 2, .push 3, .wtest,
      .wcheck, .wdrop, .wtest, .wcheck, .wdrop]).isSome := by decide +kernel
  refine ⟨_, _, run_hist .nil (Option.some_get h1).symm, ?_⟩
  decide +kernel

/-- C38 fails: a message a reader was about to hand to its handler is taken away; the reader goes on to the next and
waits there. -/
theorem C38_lost_violated : ∃ h s, Hist (fun _ => 100) 1 h s ∧ due 0 h = [1, 2] ∧ received 0 h = [2] ∧
    enabled s (.fetch 0) = true ∧ step (fun _ => 100) s (.fetch 0) = some (s, .unit) := by
  have h1 : (run (fun _ => 100) (create 1) [.openR false, .register 0, .look 0, .set 0, .push 1, .fetch 0, .push 2, .wake, .wtest,
    .wcheck, .wcheck, .wdrop, .recv 0, .adv 0, .fetch 0, .recv 0, .adv 0]).isSome := by decide +kernel
  refine ⟨_, _, run_hist .nil (Option.some_get h1).symm, ?_⟩
  decide +kernel

/-- C37 fails: a message put in after the opening of a reader for new messages returned is not received, because the
thread of the reader had not looked at the list yet; the reader waits for the next. -/
theorem C37_open_violated : ∃ h s, Hist (fun _ => 100) 0 h s ∧
    h.map (·.1) = [.openR false, .register 0, .push 5, .look 0, .set 0] ∧ received 0 h = [] ∧ enabled s (.fetch 0) = true ∧
    step (fun _ => 100) s (.fetch 0) = some (s, .unit) := by
  have h1 : (run (fun _ => 100) (create 0) [.openR false, .register 0, .push 5, .look 0, .set 0]).isSome := by decide +kernel
  refine ⟨_, _, run_hist .nil (Option.some_get h1).symm, ?_⟩
  decide +kernel

/-- C37 fails: a list that keeps everything is cleared while a reader is behind. -/
theorem C37_clear_violated : ∃ h s, Hist (fun _ => 100) 0 h s ∧ enabled s (.fetch 0) = true ∧
    step (fun _ => 100) s (.fetch 0) = none ∧
    h.map (·.1) = [.openR true, .register 0, .look 0, .set 0, .push 5, .push 6, .clear] := by
  have h1 : (run (fun _ => 100) (create 0) [.openR true, .register 0, .look 0, .set 0, .push 5, .push 6, .clear]).isSome := by
    decide +kernel
  refine ⟨_, _, run_hist .nil (Option.some_get h1).symm, ?_⟩
  decide +kernel

private theorem calm_get {sz : Nat → Nat} {m : Nat} {es : List Ev} (h1 : (run sz (create m) es).isSome)
    (h2 : ∀ e ∈ es, plain e = true) : Calm sz m ((run sz (create m) es).get h1).2 ((run sz (create m) es).get h1).1 := by
  obtain ⟨x, hx⟩ := Option.isSome_iff_exists.1 h1
  have := calm_run .nil h2 hx
  simp only [hx, Option.get_some]
  exact this

/-- Ten messages of 100 bytes, then ten of 1000 bytes. -/
private def mixed : List Ev :=
  [.push 100, .wake] ++ ((List.replicate 9 100 ++ List.replicate 10 1000).map fun z => ([.push z, .wtest, .wcheck, .wdrop] : List Ev)).flatten

/-- C74 fails: a list for 1024 bytes is given ten messages of 100 bytes, then ten of 1000 bytes.  No reader is there and
the watcher stands at the newest message; the list keeps all ten of 1000 bytes. -/
theorem C74_violated : ∃ h s, Calm (fun z => z) 1024 h s ∧ s.wcur = some (pushed h).length ∧
    freed h = List.replicate 9 (some 100) ∧ pushed h = List.replicate 10 100 ++ List.replicate 10 1000 := by
  have h1 : (run (fun z => z) (create 1024) mixed).isSome := by decide +kernel
  refine ⟨_, _, calm_get h1 (by decide +kernel), ?_⟩
  decide +kernel +revert

/-- Messages of one size: two of the five are let go of. -/
example : ∃ h s, Calm (fun _ => 400) 1024 h s ∧ (∀ o ∈ pushed h, (fun _ => 400) o = 400) ∧ s.wcur = some (pushed h).length ∧
    freed h = [some 1, some 2] ∧ pushed h = [1, 2, 3, 4, 5] := by
  have h1 : (run (fun _ => 400) (create 1024) ([.push 1, .wake] ++ ([2, 3, 4, 5].map fun z => ([.push z, .wtest, .wcheck,
    .wdrop] : List Ev)).flatten)).isSome := by decide +kernel
  refine ⟨_, _, calm_get h1 (by decide +kernel), ?_⟩
  decide +kernel +revert

end Sis.Ll
