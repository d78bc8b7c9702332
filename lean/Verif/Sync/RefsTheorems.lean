import Verif.Sync.Refs
/-
C39: a shared object is freed exactly when the last holder lets go.
-/
namespace Sis.Refs

/-- Every schedule of an object created with a pointer (`ptr`) by one of `others + 1` threads. -/
inductive Hist (ptr : Bool) (others : Nat) : List (Ev × Out) → S → Prop
  | nil : Hist ptr others [] (create ptr others)
  | snoc {h s e s' o} : Hist ptr others h s → enabled s e = true → step s e = some (s', o) → Hist ptr others (h ++ [(e, o)]) s'

/-! ### Specification -/

/-- The references given out: the first, and one for each `sis_object_incr` that returned the object. -/
def given (h : List (Ev × Out)) : Nat := 1 + h.countP fun x => x.2 == .granted

/-- The calls of `sis_object_decr`. -/
def returned (h : List (Ev × Out)) : Nat := h.countP fun x => match x.1 with
  | .decr _ => true
  | _ => false

/-- The calls of `sis_object_decr` that got through. -/
def released (h : List (Ev × Out)) : Nat := h.countP fun x => x.2 == .released

/-- How often the object was freed. -/
def frees (h : List (Ev × Out)) : Nat := h.countP fun x => x.2 == .freed

/-- The references in use were never more than the counter can hold; one that is being returned counts until the call
got through. -/
def Fits (h : List (Ev × Out)) : Prop := ∀ g, g <+: h → given g < released g + 2 ^ 32

/-! ### Sums over the threads -/

private def pend : Pc → Nat
  | .read _ => 1
  | .again => 1
  | _ => 0

private def isFr : Pc → Nat
  | .freeing => 1
  | _ => 0

private def sum (f : Thr → Nat) (l : List Thr) : Nat := (l.map f).sum

private theorem sum_set (f : Thr → Nat) : ∀ {l : List Thr} {t : Nat} {x y : Thr}, l[t]? = some x →
    sum f (l.set t y) + f x = sum f l + f y
  | [], _, _, _, h => by cases h
  | a :: l, 0, x, y, h => by
    cases h
    simp [sum]
    omega
  | a :: l, t + 1, x, y, h => by
    have h' : l[t]? = some x := by simpa using h
    have ih := sum_set f (y := y) h'
    simp only [sum, List.set_cons_succ, List.map_cons, List.sum_cons] at ih ⊢
    omega

private theorem sum_ge (f : Thr → Nat) : ∀ {l : List Thr} {t : Nat} {x : Thr}, l[t]? = some x → f x ≤ sum f l
  | [], _, _, h => by cases h
  | a :: l, 0, x, h => by
    cases h
    simp [sum]
  | a :: l, t + 1, x, h => by
    have h' : l[t]? = some x := by simpa using h
    have ih := sum_ge f h'
    simp only [sum, List.map_cons, List.sum_cons] at ih ⊢
    omega

/-! ### The invariant -/

private def H (s : S) : Nat := sum (fun x => x.held) s.thr
private def P (s : S) : Nat := sum (fun x => pend x.pc) s.thr
private def R (s : S) : Nat := sum (fun x => isFr x.pc) s.thr

private structure Inv (h : List (Ev × Out)) (s : S) : Prop where
  ptr : s.ptr = true
  hold : ∀ (t : Nat) x, s.thr[t]? = some x → x.pc = .checked → x.held ≠ 0
  live : s.live = true → s.refs = H s + P s ∧ (H s + P s = 0 → R s = 1) ∧ (H s + P s ≠ 0 → R s = 0) ∧ frees h = 0
  dead : s.live = false → H s + P s = 0 ∧ R s = 0 ∧ frees h = 1
  held : given h = returned h + H s
  cnt : given h = released h + H s + P s

private theorem sum_zero (f : Thr → Nat) (n : Nat) (x : Thr) (hx : f x = 0) : sum f (List.replicate n x) = 0 := by
  induction n with
  | zero => rfl
  | succ n ih => simp only [sum, List.replicate_succ, List.map_cons, List.sum_cons, hx] at ih ⊢; omega

private theorem inv_create (n : Nat) : Inv [] (create true n) := by
  have h1 : H (create true n) = 1 := by
    have := sum_zero (fun x => x.held) n ⟨0, .idle⟩ rfl
    simp only [H, create, sum, List.map_cons, List.sum_cons] at this ⊢
    omega
  have h2 : P (create true n) = 0 := by
    have := sum_zero (fun x => pend x.pc) n ⟨0, .idle⟩ rfl
    simp only [P, create, sum, List.map_cons, List.sum_cons, pend] at this ⊢
    omega
  have h3 : R (create true n) = 0 := by
    have := sum_zero (fun x => isFr x.pc) n ⟨0, .idle⟩ rfl
    simp only [R, create, sum, List.map_cons, List.sum_cons, isFr] at this ⊢
    omega
  refine ⟨rfl, ?_, ?_, nofun, ?_, ?_⟩
  · intro t x hx hc
    cases t with
    | zero => cases hx; cases hc
    | succ t =>
      simp only [create, List.getElem?_cons_succ, List.getElem?_replicate] at hx
      split at hx
      · cases hx; cases hc
      · cases hx
  · intro _
    rw [h1, h2, h3]
    exact ⟨rfl, nofun, fun _ => rfl, rfl⟩
  · rw [h1]; rfl
  · rw [h1, h2]; rfl

private theorem given_snoc (h : List (Ev × Out)) (e : Ev) (o : Out) : given (h ++ [(e, o)]) = given h + if o = .granted then 1 else 0 := by
  simp only [given, List.countP_append, List.countP_singleton]
  by_cases ho : o = .granted <;> simp [ho] <;> omega

private theorem released_snoc (h : List (Ev × Out)) (e : Ev) (o : Out) :
    released (h ++ [(e, o)]) = released h + if o = .released then 1 else 0 := by
  simp only [released, List.countP_append, List.countP_singleton]
  by_cases ho : o = .released <;> simp [ho]

private theorem frees_snoc (h : List (Ev × Out)) (e : Ev) (o : Out) : frees (h ++ [(e, o)]) = frees h + if o = .freed then 1 else 0 := by
  simp only [frees, List.countP_append, List.countP_singleton]
  by_cases ho : o = .freed <;> simp [ho]

private def isDecr : Ev → Nat
  | .decr _ => 1
  | _ => 0

private theorem returned_snoc (h : List (Ev × Out)) (e : Ev) (o : Out) : returned (h ++ [(e, o)]) = returned h + isDecr e := by
  simp only [returned, List.countP_append, List.countP_singleton]
  cases e <;> simp [isDecr]

private theorem sums {s : S} {t : Nat} {x y : Thr} (hx : s.thr[t]? = some x) (refs : Nat) (ptr live : Bool) :
    H ⟨refs, ptr, live, s.thr.set t y⟩ + x.held = H s + y.held ∧ P ⟨refs, ptr, live, s.thr.set t y⟩ + pend x.pc = P s + pend y.pc ∧
    R ⟨refs, ptr, live, s.thr.set t y⟩ + isFr x.pc = R s + isFr y.pc :=
  ⟨sum_set _ hx, sum_set _ hx, sum_set _ hx⟩

private theorem get_set {l : List Thr} {t u : Nat} {x y z : Thr} (hx : l[t]? = some x) (h : (l.set t y)[u]? = some z) :
    z = y ∨ l[u]? = some z := by
  rw [List.getElem?_set] at h
  by_cases htu : t = u
  · rw [if_pos htu, if_pos (List.getElem?_eq_some_iff.1 hx).1] at h
    cases h
    exact .inl rfl
  · rw [if_neg htu] at h
    exact .inr h

private theorem inv_step {h : List (Ev × Out)} {s : S} (v : Inv h s) {e : Ev} (en : enabled s e = true)
    (hf : given h < released h + 2 ^ 32) :
    ∃ s' o, step s e = some (s', o) ∧ (given (h ++ [(e, o)]) < released (h ++ [(e, o)]) + 2 ^ 32 → Inv (h ++ [(e, o)]) s') := by
  obtain ⟨hp, hck, hl, hd, hh, hc⟩ := v
  have thread : ∀ {t : Nat} {f : Thr → Bool}, s.thr[t]?.any f = true → ∃ x, s.thr[t]? = some x ∧ f x = true := by
    intro t f hx
    cases h1 : s.thr[t]? with
    | none => rw [h1] at hx; cases hx
    | some x => rw [h1] at hx; exact ⟨x, rfl, hx⟩
  have alive : ∀ {t : Nat} {x : Thr}, s.thr[t]? = some x → x.held + pend x.pc + isFr x.pc ≠ 0 → s.live = true := by
    intro t x hx hne
    cases hlv : s.live with
    | true => rfl
    | false =>
      obtain ⟨h1, h2, -⟩ := hd hlv
      have g1 : x.held ≤ H s := sum_ge (fun x => x.held) hx
      have g2 : pend x.pc ≤ P s := sum_ge (fun x => pend x.pc) hx
      have g3 : isFr x.pc ≤ R s := sum_ge (fun x => isFr x.pc) hx
      omega
  have hold_set : ∀ {t : Nat} {x y : Thr} (refs : Nat) (live : Bool), s.thr[t]? = some x → (y.pc = .checked → y.held ≠ 0) →
      ∀ (u : Nat) z, (⟨refs, s.ptr, live, s.thr.set t y⟩ : S).thr[u]? = some z → z.pc = .checked → z.held ≠ 0 := by
    intro t x y refs live hx hy u z hz hzc
    rcases get_set hx hz with rfl | hz
    · exact hy hzc
    · exact hck u z hz hzc
  cases e with
  | incr t =>
    obtain ⟨x, hx, hpx⟩ := thread en
    simp only [Bool.and_eq_true, beq_iff_eq, bne_iff_ne] at hpx
    have hlv := alive hx (by omega)
    obtain ⟨l1, l2, l3, l4⟩ := hl hlv
    by_cases hm : s.refs = maxRefs
    · refine ⟨s, .refused, by simp [step, hx, hlv, hm], fun _ => ⟨hp, hck, fun _ => ⟨l1, l2, l3, ?_⟩, fun h0 => ?_, ?_, ?_⟩⟩
      · rw [frees_snoc, if_neg nofun]; exact l4
      · rw [hlv] at h0; cases h0
      · rw [given_snoc, returned_snoc, if_neg nofun]; simpa [isDecr] using hh
      · rw [given_snoc, released_snoc, if_neg nofun, if_neg nofun]; simpa using hc
    · obtain ⟨e1, e2, e3⟩ := sums (y := ⟨x.held, .checked⟩) hx s.refs s.ptr s.live
      rw [hpx.1] at e2 e3
      simp only [pend, isFr] at e1 e2 e3
      refine ⟨⟨s.refs, s.ptr, s.live, s.thr.set t ⟨x.held, .checked⟩⟩, .unit, by simp [step, hx, hlv, hm, set], fun _ =>
        ⟨hp, hold_set _ _ hx (fun _ => hpx.2), fun _ => ⟨?_, ?_, ?_, ?_⟩, fun h0 => ?_, ?_, ?_⟩⟩
      · show s.refs = _; omega
      · intro h0; have := l2 (by omega); omega
      · intro h0; have := l3 (by omega); omega
      · rw [frees_snoc, if_neg nofun]; exact l4
      · rw [hlv] at h0; cases h0
      · rw [given_snoc, returned_snoc, if_neg nofun]; simp only [isDecr]; omega
      · rw [given_snoc, released_snoc, if_neg nofun, if_neg nofun]; omega
  | add t =>
    obtain ⟨x, hx, hpx⟩ := thread en
    simp only [beq_iff_eq] at hpx
    have hhx := hck t x hx hpx
    have hlv := alive hx (by omega)
    obtain ⟨l1, l2, l3, l4⟩ := hl hlv
    obtain ⟨e1, e2, e3⟩ := sums (y := ⟨x.held + 1, .idle⟩) hx ((s.refs + 1) % 2 ^ 32) s.ptr s.live
    rw [hpx] at e2 e3
    simp only [pend, isFr] at e1 e2 e3
    have hge : x.held ≤ H s := sum_ge (fun x => x.held) hx
    refine ⟨⟨(s.refs + 1) % 2 ^ 32, s.ptr, s.live, s.thr.set t ⟨x.held + 1, .idle⟩⟩, .granted, by simp [step, hx, hlv, set], fun hfit =>
      ⟨hp, hold_set _ _ hx nofun, fun _ => ⟨?_, ?_, ?_, ?_⟩, fun h0 => ?_, ?_, ?_⟩⟩
    · rw [given_snoc, released_snoc, if_pos rfl, if_neg nofun] at hfit
      have hmod : (s.refs + 1) % 2 ^ 32 = s.refs + 1 := Nat.mod_eq_of_lt (by omega)
      show (s.refs + 1) % 2 ^ 32 = _
      omega
    · intro h0; omega
    · intro h0; have := l3 (by omega); omega
    · rw [frees_snoc, if_neg nofun]; exact l4
    · rw [hlv] at h0; cases h0
    · rw [given_snoc, returned_snoc, if_pos rfl]; simp only [isDecr]; omega
    · rw [given_snoc, released_snoc, if_pos rfl, if_neg nofun]; omega
  | decr t =>
    obtain ⟨x, hx, hpx⟩ := thread en
    simp only [Bool.and_eq_true, beq_iff_eq, bne_iff_ne] at hpx
    have hlv := alive hx (by omega)
    obtain ⟨l1, l2, l3, l4⟩ := hl hlv
    obtain ⟨e1, e2, e3⟩ := sums (y := ⟨x.held - 1, .read s.refs⟩) hx s.refs s.ptr s.live
    rw [hpx.1] at e2 e3
    simp only [pend, isFr] at e1 e2 e3
    have hge : x.held ≤ H s := sum_ge (fun x => x.held) hx
    refine ⟨⟨s.refs, s.ptr, s.live, s.thr.set t ⟨x.held - 1, .read s.refs⟩⟩, .unit, by simp [step, hx, hlv, hp, set], fun _ =>
      ⟨hp, hold_set _ _ hx nofun, fun _ => ⟨?_, ?_, ?_, ?_⟩, fun h0 => ?_, ?_, ?_⟩⟩
    · show s.refs = _; omega
    · intro h0; omega
    · intro h0; have := l3 (by omega); omega
    · rw [frees_snoc, if_neg nofun]; exact l4
    · rw [hlv] at h0; cases h0
    · rw [given_snoc, returned_snoc, if_neg nofun]; simp only [isDecr]; omega
    · rw [given_snoc, released_snoc, if_neg nofun, if_neg nofun]; omega
  | cas t =>
    obtain ⟨x, hx, hpx⟩ := thread en
    obtain ⟨xh, xpc⟩ := x
    cases xpc with
    | read r =>
      have hlv := alive hx (by simp [pend])
      obtain ⟨l1, l2, l3, l4⟩ := hl hlv
      have hge : 1 ≤ P s := sum_ge (fun x => pend x.pc) hx
      by_cases hr : s.refs = r
      · obtain ⟨e1, e2, e3⟩ := sums (y := ⟨xh, if r = 1 then .freeing else .idle⟩) hx ((r + (2 ^ 32 - 1)) % 2 ^ 32) s.ptr s.live
        have hpe : pend (if r = 1 then .freeing else .idle) = 0 := by split <;> rfl
        have hfe : isFr (if r = 1 then .freeing else .idle) = if r = 1 then 1 else 0 := by split <;> rfl
        simp only [hpe, hfe] at e1 e2 e3
        have hp1 : pend (.read r) = 1 := rfl
        have hp2 : isFr (.read r) = 0 := rfl
        rw [hp1] at e2
        rw [hp2] at e3
        have hrm : (r + (2 ^ 32 - 1)) % 2 ^ 32 = r - 1 := by omega
        have hl3 : R s = 0 := l3 (by omega)
        refine ⟨⟨(r + (2 ^ 32 - 1)) % 2 ^ 32, s.ptr, s.live, s.thr.set t ⟨xh, if r = 1 then .freeing else .idle⟩⟩, .released,
          by simp [step, hx, hlv, hr, set], fun _ =>
          ⟨hp, hold_set _ _ hx (by split <;> nofun), fun _ => ⟨?_, ?_, ?_, ?_⟩, fun h0 => ?_, ?_, ?_⟩⟩
        · show (r + (2 ^ 32 - 1)) % 2 ^ 32 = _; omega
        · intro h0
          have hi : (if r = 1 then 1 else 0 : Nat) = 1 := if_pos (by omega)
          omega
        · intro h0
          have hi : (if r = 1 then 1 else 0 : Nat) = 0 := if_neg (by omega)
          omega
        · rw [frees_snoc, if_neg nofun]; exact l4
        · rw [hlv] at h0; cases h0
        · rw [given_snoc, returned_snoc, if_neg nofun]; simp only [isDecr]; omega
        · rw [given_snoc, released_snoc, if_neg nofun, if_pos rfl]; omega
      · obtain ⟨e1, e2, e3⟩ := sums (y := ⟨xh, .again⟩) hx s.refs s.ptr s.live
        simp only [pend, isFr] at e1 e2 e3
        refine ⟨⟨s.refs, s.ptr, s.live, s.thr.set t ⟨xh, .again⟩⟩, .unit, by simp [step, hx, hlv, hr, set], fun _ =>
          ⟨hp, hold_set _ _ hx nofun, fun _ => ⟨?_, ?_, ?_, ?_⟩, fun h0 => ?_, ?_, ?_⟩⟩
        · show s.refs = _; omega
        · intro h0; omega
        · intro h0; have := l3 (by omega); omega
        · rw [frees_snoc, if_neg nofun]; exact l4
        · rw [hlv] at h0; cases h0
        · rw [given_snoc, returned_snoc, if_neg nofun]; simp only [isDecr]; omega
        · rw [given_snoc, released_snoc, if_neg nofun, if_neg nofun]; omega
    | _ => cases hpx
  | reread t =>
    obtain ⟨x, hx, hpx⟩ := thread en
    simp only [beq_iff_eq] at hpx
    have hlv := alive hx (by rw [hpx]; simp [pend])
    obtain ⟨l1, l2, l3, l4⟩ := hl hlv
    obtain ⟨e1, e2, e3⟩ := sums (y := ⟨x.held, .read s.refs⟩) hx s.refs s.ptr s.live
    rw [hpx] at e2 e3
    simp only [pend, isFr] at e1 e2 e3
    refine ⟨⟨s.refs, s.ptr, s.live, s.thr.set t ⟨x.held, .read s.refs⟩⟩, .unit, by simp [step, hx, hlv, set], fun _ =>
      ⟨hp, hold_set _ _ hx nofun, fun _ => ⟨?_, ?_, ?_, ?_⟩, fun h0 => ?_, ?_, ?_⟩⟩
    · show s.refs = _; omega
    · intro h0; have := l2 (by omega); omega
    · intro h0; have := l3 (by omega); omega
    · rw [frees_snoc, if_neg nofun]; exact l4
    · rw [hlv] at h0; cases h0
    · rw [given_snoc, returned_snoc, if_neg nofun]; simp only [isDecr]; omega
    · rw [given_snoc, released_snoc, if_neg nofun, if_neg nofun]; omega
  | free t =>
    obtain ⟨x, hx, hpx⟩ := thread en
    simp only [beq_iff_eq] at hpx
    have hlv := alive hx (by rw [hpx]; simp [isFr])
    obtain ⟨l1, l2, l3, l4⟩ := hl hlv
    have hge : isFr x.pc ≤ R s := sum_ge (fun x => isFr x.pc) hx
    obtain ⟨e1, e2, e3⟩ := sums (y := ⟨x.held, .idle⟩) hx s.refs s.ptr false
    rw [hpx] at e2 e3 hge
    simp only [pend, isFr] at e1 e2 e3 hge
    have h00 : H s + P s = 0 := Classical.byContradiction fun hne => by have := l3 hne; omega
    have hR := l2 h00
    refine ⟨⟨s.refs, s.ptr, false, s.thr.set t ⟨x.held, .idle⟩⟩, .freed, by simp [step, hx, hlv, set], fun _ =>
      ⟨hp, hold_set _ _ hx nofun, nofun, fun _ => ⟨?_, ?_, ?_⟩, ?_, ?_⟩⟩
    · omega
    · omega
    · rw [frees_snoc, if_pos rfl, l4]
    · rw [given_snoc, returned_snoc, if_neg nofun]; simp only [isDecr]; omega
    · rw [given_snoc, released_snoc, if_neg nofun, if_neg nofun]; omega
  | give t u =>
    simp only [enabled, Bool.and_eq_true, bne_iff_ne] at en
    obtain ⟨⟨htu, en1⟩, en2⟩ := en
    obtain ⟨x, hx, hpx⟩ := thread en1
    obtain ⟨y, hy, hpy⟩ := thread en2
    simp only [Bool.and_eq_true, beq_iff_eq, bne_iff_ne] at hpx hpy
    have hlv := alive hx (by omega)
    obtain ⟨l1, l2, l3, l4⟩ := hl hlv
    have hge : x.held ≤ H s := sum_ge (fun x => x.held) hx
    have hy' : (s.thr.set t ⟨x.held - 1, x.pc⟩)[u]? = some y := by rw [List.getElem?_set, if_neg htu]; exact hy
    obtain ⟨e1, e2, e3⟩ := sums (y := ⟨x.held - 1, x.pc⟩) hx s.refs s.ptr s.live
    obtain ⟨f1, f2, f3⟩ := sums (s := ⟨s.refs, s.ptr, s.live, s.thr.set t ⟨x.held - 1, x.pc⟩⟩) (y := ⟨y.held + 1, y.pc⟩) hy' s.refs s.ptr s.live
    simp only at e1 e2 e3 f1 f2 f3
    refine ⟨⟨s.refs, s.ptr, s.live, (s.thr.set t ⟨x.held - 1, x.pc⟩).set u ⟨y.held + 1, y.pc⟩⟩, .unit,
      by simp only [step, hx, hy, Option.bind_some, set], fun _ => ⟨hp, ?_, fun _ => ⟨?_, ?_, ?_, ?_⟩, fun h0 => ?_, ?_, ?_⟩⟩
    · intro w z hz hzc
      rcases get_set hy' hz with rfl | hz
      · exact Nat.succ_ne_zero _
      · rcases get_set hx hz with rfl | hz
        · rw [hpx.1] at hzc; cases hzc
        · exact hck w z hz hzc
    · show s.refs = _; omega
    · intro h0; have := l2 (by omega); omega
    · intro h0; have := l3 (by omega); omega
    · rw [frees_snoc, if_neg nofun]; exact l4
    · rw [hlv] at h0; cases h0
    · rw [given_snoc, returned_snoc, if_neg nofun]; simp only [isDecr]; omega
    · rw [given_snoc, released_snoc, if_neg nofun, if_neg nofun]; omega

private theorem inv_hist {n : Nat} {h : List (Ev × Out)} {s : S} (Hh : Hist true n h s) (hf : Fits h) : Inv h s := by
  induction Hh with
  | nil => exact inv_create n
  | @snoc h s e s' o Hh en hs ih =>
    have v := ih fun g hg => hf g (hg.trans (List.prefix_append _ _))
    obtain ⟨s1, o1, e1, k⟩ := inv_step v en (hf h (List.prefix_append _ _))
    rw [e1] at hs
    cases hs
    exact k (hf _ (List.prefix_refl _))

/-! ### C39 -/

/-- C39: whatever the threads do, no call uses the object after it was freed, and it is not freed again, as long as the
references fit the counter.  Missing: more than 2^32 - 1 references, see `C39_overflow_violated`. -/
theorem C39_never_used_after_free_partial {n : Nat} {h : List (Ev × Out)} {s : S} (Hh : Hist true n h s) (hf : Fits h)
    {e : Ev} (en : enabled s e = true) : (step s e).isSome := by
  obtain ⟨s1, o1, e1, -⟩ := inv_step (inv_hist Hh hf) en (hf h (List.prefix_refl _))
  rw [e1]; rfl

/-- C39: the object is freed at most once, only when as many references were returned as were given out; and when all
were returned and no call is under way, it was freed. -/
theorem C39_freed_exactly_once_partial {n : Nat} {h : List (Ev × Out)} {s : S} (Hh : Hist true n h s) (hf : Fits h) :
    frees h ≤ 1 ∧ (frees h = 1 → returned h = given h) ∧
      (returned h = given h → (∀ e, enabled s e = false) → frees h = 1) := by
  obtain ⟨hp, hck, hl, hd, hh, hc⟩ := inv_hist Hh hf
  cases hlv : s.live with
  | false =>
    obtain ⟨h1, h2, h3⟩ := hd hlv
    exact ⟨by omega, fun _ => by omega, fun _ _ => h3⟩
  | true =>
    obtain ⟨l1, l2, l3, l4⟩ := hl hlv
    refine ⟨by omega, fun h0 => by omega, fun h0 hen => ?_⟩
    have idle : ∀ (t : Nat) x, s.thr[t]? = some x → pend x.pc = 0 ∧ isFr x.pc = 0 := by
      intro t x hx
      have h1 := hen (.cas t)
      have h2 := hen (.reread t)
      have h3 := hen (.free t)
      simp only [enabled, hx, Option.any_some] at h1 h2 h3
      obtain ⟨xh, xp⟩ := x
      cases xp <;> simp_all [pend, isFr]
    have all : ∀ (f : Thr → Nat) (l : List Thr), (∀ (t : Nat) x, l[t]? = some x → f x = 0) → sum f l = 0 := by
      intro f l
      induction l with
      | nil => intro _; rfl
      | cons a l ih =>
        intro hz
        have g1 := hz 0 a rfl
        have g2 := ih fun t x hx => hz (t + 1) x (by simpa using hx)
        simp only [sum, List.map_cons, List.sum_cons] at g2 ⊢
        omega
    have hP : P s = 0 := all _ _ fun t x hx => (idle t x hx).1
    have hR : R s = 0 := all _ _ fun t x hx => (idle t x hx).2
    have := l2 (by omega)
    omega

/-- C39: as long as a thread holds a reference, `sis_object_incr` gives it a further one, unless there are 2^32 - 1. -/
theorem C39_granted_partial {n : Nat} {h : List (Ev × Out)} {s s' : S} {t : Nat} (Hh : Hist true n h s) (hf : Fits h)
    (en : enabled s (.incr t) = true) (hs : step s (.incr t) = some (s', .refused)) : given h = released h + (2 ^ 32 - 1) := by
  have v := inv_hist Hh hf
  simp only [enabled] at en
  cases hx : s.thr[t]? with
  | none => rw [hx] at en; cases en
  | some x =>
    rw [hx] at en
    simp only [Option.any_some, Bool.and_eq_true, bne_iff_ne] at en
    have hge : x.held ≤ H s := sum_ge (fun x => x.held) hx
    cases hlv : s.live with
    | false => have := (v.dead hlv).1; omega
    | true =>
      simp only [step, hx, Option.bind_some, hlv, Bool.not_true, Bool.false_eq_true, if_false] at hs
      split at hs
      · rename_i hm
        have h1 := (v.live hlv).1
        have h2 := v.cnt
        rw [hm] at h1
        simp only [maxRefs] at h1
        omega
      · cases hs

/-! ### A case -/

def run (s : S) : List Ev → Option (S × List (Ev × Out))
  | [] => some (s, [])
  | e :: es => if enabled s e then
      (step s e).bind fun (s, o) => (run s es).map fun (s, h) => (s, (e, o) :: h)
    else none

theorem run_hist {ptr : Bool} {n : Nat} : ∀ {es : List Ev} {h : List (Ev × Out)} {s s' : S} {h' : List (Ev × Out)},
    Hist ptr n h s → run s es = some (s', h') → Hist ptr n (h ++ h') s'
  | [], h, s, s', h', Hh, hr => by
    cases hr
    rw [List.append_nil]
    exact Hh
  | e :: es, h, s, s', h', Hh, hr => by
    unfold run at hr
    by_cases en : enabled s e = true
    · rw [if_pos en] at hr
      cases hs : step s e with
      | none => rw [hs] at hr; cases hr
      | some x =>
        obtain ⟨s1, o⟩ := x
        rw [hs, Option.bind_some] at hr
        cases hr2 : run s1 es with
        | none => simp only [hr2, Option.map_none] at hr; cases hr
        | some y =>
          obtain ⟨s2, h2⟩ := y
          simp only [hr2, Option.map_some] at hr
          cases hr
          have := run_hist (Hh.snoc en hs) hr2
          rw [List.append_assoc] at this
          exact this
    · rw [if_neg en] at hr
      cases hr

/-- A short history fits. -/
theorem fits_of_length {h : List (Ev × Out)} (hl : h.length < 2 ^ 32 - 1) : Fits h := by
  intro g hg
  have h1 : g.length ≤ h.length := hg.length_le
  have h2 : given g ≤ 1 + g.length := by
    simp only [given]
    have := List.countP_le_length (p := fun x : Ev × Out => x.2 == .granted) (l := g)
    omega
  omega

/-- Three threads: two references are given out and handed over, two threads return theirs at the same time (one of
the exchanges fails and is repeated), and the last one frees the object. -/
example : ∃ h s, Hist true 2 h s ∧ Fits h ∧ given h = 3 ∧ returned h = 3 ∧ frees h = 1 := by
  have h1 : (run (create true 2) [.incr 0, .add 0, .give 0 1, .incr 1, .add 1, .give 1 2, .decr 0, .decr 1, .cas 1, .cas 0, .reread 0,
    .cas 0, .decr 2, .cas 2, .free 2]).isSome := by decide +kernel
  refine ⟨_, _, run_hist .nil (Option.some_get h1).symm, fits_of_length ?_, ?_⟩
  · decide +kernel
  · decide +kernel

/-! ### What fails -/

/-- C39 fails for an object without a pointer, such as the number 0: it is never freed. -/
theorem C39_null_violated : ∃ h s, Hist false 0 h s ∧ returned h = given h ∧ (∀ t, enabled s (.decr t) = false) ∧ frees h = 0 ∧
    s.live = true := by
  have hr : run (create false 0) [.decr 0] = some (⟨1, false, true, [⟨0, .idle⟩]⟩, [(.decr 0, .released)]) := by decide +kernel
  refine ⟨_, _, run_hist .nil hr, by decide, ?_, by decide, rfl⟩
  intro t
  cases t with
  | zero => rfl
  | succ t => simp [enabled]

/-- Any number of references can be reached. -/
private theorem reach : ∀ k, k < 2 ^ 32 - 1 → ∃ h, Hist true 1 h ⟨k + 1, true, true, [⟨k + 1, .idle⟩, ⟨0, .idle⟩]⟩ ∧ returned h = 0 ∧
    given h = k + 1 ∧ frees h = 0
  | 0, _ => ⟨[], .nil, rfl, rfl, rfl⟩
  | k + 1, hk => by
    obtain ⟨h, Hh, h1, h2, h3⟩ := reach k (by omega)
    have s1 : step ⟨k + 1, true, true, [⟨k + 1, .idle⟩, ⟨0, .idle⟩]⟩ (.incr 0) =
        some (⟨k + 1, true, true, [⟨k + 1, .checked⟩, ⟨0, .idle⟩]⟩, .unit) := by
      have : ¬ k + 1 = maxRefs := by unfold maxRefs; omega
      simp [step, this, set]
    have s2 : step ⟨k + 1, true, true, [⟨k + 1, .checked⟩, ⟨0, .idle⟩]⟩ (.add 0) =
        some (⟨k + 1 + 1, true, true, [⟨k + 1 + 1, .idle⟩, ⟨0, .idle⟩]⟩, .granted) := by
      have : (k + 1 + 1) % 2 ^ 32 = k + 1 + 1 := Nat.mod_eq_of_lt (by omega)
      simp only [step, List.getElem?_cons_zero, Option.bind_some, Bool.not_true, Bool.false_eq_true, if_false, this]
      rfl
    refine ⟨_, (Hh.snoc (e := .incr 0) (by simp [enabled]) s1).snoc (e := .add 0) (by simp [enabled]) s2, ?_, ?_, ?_⟩
    · rw [returned_snoc, returned_snoc, h1]; rfl
    · rw [given_snoc, given_snoc, h2, if_pos rfl, if_neg nofun]
    · rw [frees_snoc, frees_snoc, h3]; rfl

/-- C39 fails when two threads ask for the last reference at once: both see that one is left, and the counter goes
round to 0.  One reference more and its return free the object, although 2^32 references are held. -/
theorem C39_overflow_violated : ∃ h s, Hist true 1 h s ∧ frees h = 1 ∧ given h = returned h + 2 ^ 32 ∧
    enabled s (.decr 0) = true ∧ step s (.decr 0) = none := by
  obtain ⟨h, Hh, h1, h2, h3⟩ := reach (2 ^ 32 - 3) (by decide)
  have e1 : (2 ^ 32 - 3 + 1 : Nat) = 4294967294 := by decide
  rw [e1] at Hh h2
  have hr : run ⟨4294967294, true, true, [⟨4294967294, .idle⟩, ⟨0, .idle⟩]⟩
      [.give 0 1, .incr 0, .incr 1, .add 0, .add 1, .incr 0, .add 0, .decr 0, .cas 0, .free 0] =
      some (⟨0, true, false, [⟨4294967294, .idle⟩, ⟨2, .idle⟩]⟩,
        [(.give 0 1, .unit), (.incr 0, .unit), (.incr 1, .unit), (.add 0, .granted), (.add 1, .granted), (.incr 0, .unit),
          (.add 0, .granted), (.decr 0, .unit), (.cas 0, .released), (.free 0, .freed)]) := by decide +kernel
  refine ⟨_, _, run_hist Hh hr, ?_, ?_, by decide +kernel, by decide +kernel⟩
  · simp only [frees, List.countP_append] at h3 ⊢
    rw [h3]; decide
  · have g1 : given (h ++ [(.give 0 1, .unit), (.incr 0, .unit), (.incr 1, .unit), (.add 0, .granted), (.add 1, .granted), (.incr 0, .unit),
          (.add 0, .granted), (.decr 0, .unit), (.cas 0, .released), (.free 0, .freed)]) = given h + 3 := by
      simp only [given, List.countP_append]
      rw [Nat.add_assoc]
      rfl
    have g2 : returned (h ++ [(.give 0 1, .unit), (.incr 0, .unit), (.incr 1, .unit), (.add 0, .granted), (.add 1, .granted), (.incr 0, .unit),
          (.add 0, .granted), (.decr 0, .unit), (.cas 0, .released), (.free 0, .freed)]) = returned h + 1 := by
      simp only [returned, List.countP_append]
      rfl
    rw [g1, g2, h1, h2]

end Sis.Refs
