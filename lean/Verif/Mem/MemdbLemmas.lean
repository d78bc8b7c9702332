import Verif.Mem.MemdbSpec
import Mathlib.Data.List.Induction
namespace Sis.Memdb
open Sis Msg Json

theorem cstrOf_eq (s : Bytes) : cstrOf s = upTo0 s := rfl

theorem upTo0_upTo0 (s : Bytes) : upTo0 (upTo0 s) = upTo0 s := by
  unfold upTo0
  induction s with
  | nil => rfl
  | cons a s ih =>
    by_cases h : (a != 0) = true
    · simp [h, ih]
    · simp [h]

theorem caseEq_fold (a b : Bytes) : caseEq a b = true ↔ fold a = fold b := caseEq_cut a b

theorem fold_str {s : Bytes} (h : fold s = s) (c : Bytes) : caseEq c s = true ↔ fold c = s := by
  rw [caseEq_fold, h]

theorem method_says (r : Req) :
    method r.m.cmd = if Says r "init" then some .init else if Says r "get" then some .get else if Says r "set" then some .set
      else if Says r "sub" then some .sub else if Says r "hsub" then some .hsub else if Says r "pub" then some .pub
      else if Says r "unsub" then some .unsub else none := by
  cases hc : r.m.cmd with
  | none => simp [method, Says, hc]
  | some c =>
    have e : ∀ t, Says r t ↔ fold c = str t := fun t => by simp [Says, hc]
    have f : ∀ t, fold (str t) = str t → (Says r t ↔ caseEq c (str t) = true) := fun t ht => by rw [e, fold_str ht]
    simp only [f "init" (by decide +kernel), f "get" (by decide +kernel), f "set" (by decide +kernel), f "sub" (by decide +kernel),
      f "hsub" (by decide +kernel), f "pub" (by decide +kernel), f "unsub" (by decide +kernel)]
    simp only [method, Option.bind_some, methods, List.find?]
    split
    · simp [*]
    · split
      · simp [*]
      · split
        · simp [*]
        · split
          · simp [*]
          · split
            · simp [*]
            · split
              · simp [*]
              · split <;> simp [*]

theorem says_inj {r : Req} {a b : String} (h : Says r a) (hab : str a ≠ str b) : ¬ Says r b := by
  rintro ⟨s, h1, h2⟩
  obtain ⟨t, h3, h4⟩ := h
  rw [h1] at h3
  cases h3
  exact hab (h4.symm.trans h2)

theorem find_congr {α : Type} {p q : α → Bool} {l : List α} (h : ∀ e ∈ l, p e = q e) : l.find? p = l.find? q := by
  induction l with
  | nil => rfl
  | cons a l ih =>
    rw [List.find?_cons, List.find?_cons, h a (by simp), ih fun e he => h e (by simp [he])]

theorem method_of {r : Req} {t : String} {c : Cmd} (h : Says r t) (hm : (str t, c) ∈ methods) : method r.m.cmd = some c := by
  obtain ⟨s, h1, h2⟩ := h
  have : ∀ e ∈ methods, caseEq s e.1 = true ↔ e.1 = str t := by
    intro e he
    have hf : fold e.1 = e.1 := by revert e; decide +kernel
    rw [fold_str hf, h2]
    exact eq_comm
  have hu : methods.find? (fun e => caseEq s e.1) = methods.find? (fun e => e.1 == str t) := by
    apply find_congr
    intro e he
    have := this e he
    by_cases h : e.1 = str t
    · rw [this.2 h]; simp [h]
    · have h' : caseEq s e.1 = false := by
        cases hh : caseEq s e.1 with
        | false => rfl
        | true => exact absurd (this.1 hh) h
      rw [h']; simp [h]
  simp only [method, h1, Option.bind_some]
  rw [hu]
  simp only [methods, List.mem_cons, Prod.mk.injEq, List.not_mem_nil, or_false] at hm
  rcases hm with ⟨hm, rfl⟩ | ⟨hm, rfl⟩ | ⟨hm, rfl⟩ | ⟨hm, rfl⟩ | ⟨hm, rfl⟩ | ⟨hm, rfl⟩ | ⟨hm, rfl⟩ <;> rw [hm] <;> decide +kernel

/-! ### The table -/

theorem lookup_put (l : List (Bytes × Bytes)) (k s v : Bytes) :
    lookup (put l s v) k = if fold s = fold k then some v else lookup l k := by
  induction l with
  | nil =>
    simp only [put, lookup]
    by_cases h : fold s = fold k
    · rw [if_pos h, if_pos]
      rw [caseEq_fold, ← h]
      simp [fold, cstrOf_eq, upTo0_upTo0]
    · rw [if_neg h, if_neg]
      rw [caseEq_fold]
      intro hh
      apply h
      rw [hh]
      simp [fold, cstrOf_eq, upTo0_upTo0]
  | cons e l ih =>
    simp only [put]
    by_cases h1 : caseEq s e.1 = true
    · rw [if_pos h1]
      simp only [lookup]
      rw [caseEq_fold] at h1
      by_cases h2 : fold s = fold k
      · rw [if_pos h2, if_pos]
        rw [caseEq_fold, ← h2, h1]
      · rw [if_neg h2, if_neg, if_neg]
        · rw [caseEq_fold]; intro h; exact h2 (h1.trans h.symm)
        · rw [caseEq_fold]; intro h; exact h2 (h1.trans h.symm)
    · rw [if_neg h1]
      simp only [lookup, ih]
      rw [caseEq_fold] at h1
      by_cases h2 : caseEq k e.1 = true
      · rw [if_pos h2, if_pos h2, if_neg]
        rw [caseEq_fold] at h2
        intro h; exact h1 (h.trans h2)
      · rw [if_neg h2, if_neg h2]

theorem accessMethod_zero (l : Int) : Access.accessMethod access l = true := by simp [Access.accessMethod, access]

theorem serve_in (w : W) (r : Req) (h : 0 ≤ r.level) :
    serve w r = match method r.m.cmd with
      | none => some (w, [(r.cid, noMethod r.m)])
      | some c => exec w r.cid r.m c := by
  unfold serve
  rw [if_neg (by omega)]
  cases method r.m.cmd with
  | none => rfl
  | some c => simp only [accessMethod_zero, if_true]

theorem auth_none {r : Req} (h : isAuth r.m.cmd = true) : method r.m.cmd = none := by
  cases hc : r.m.cmd with
  | none => rfl
  | some c =>
    rw [hc] at h
    simp only [isAuth, caseEq_fold] at h
    have : ∀ t, Says r t → fold (str "auth") = str t := by
      rintro t ⟨s, h1, h2⟩
      rw [hc] at h1
      cases h1
      rw [h, h2]
    rw [← hc, method_says]
    have n : ∀ t, fold (str "auth") ≠ str t → ¬ Says r t := fun t ht h => ht (this t h)
    rw [if_neg (n _ (by decide +kernel)), if_neg (n _ (by decide +kernel)), if_neg (n _ (by decide +kernel)), if_neg (n _ (by decide +kernel)),
      if_neg (n _ (by decide +kernel)), if_neg (n _ (by decide +kernel)), if_neg (n _ (by decide +kernel))]

theorem serve_out (w : W) (r : Req) (h : r.level < 0) : ∃ x, serve w r = some (w, [(r.cid, x)]) := by
  unfold serve
  by_cases ha : isAuth r.m.cmd = true
  · rw [if_neg (by simp [ha]), auth_none ha]
    exact ⟨_, rfl⟩
  · rw [if_pos ⟨h, by simpa using ha⟩]
    exact ⟨_, rfl⟩

theorem run_snoc {h : List Req} {r : Req} : ∀ {w w' : W} {o},
    run w (h ++ [r]) = some (w', o) ↔ ∃ w1 o1 o2, run w h = some (w1, o1) ∧ serve w1 r = some (w', o2) ∧ o = o1 ++ [o2] := by
  induction h with
  | nil =>
    intro w w' o
    simp only [List.nil_append, run, Option.bind_eq_some_iff, Option.map_eq_some_iff]
    constructor
    · rintro ⟨⟨a, b⟩, h1, ⟨c, d⟩, h2, h3⟩
      cases h2; cases h3
      exact ⟨w, [], b, rfl, h1, rfl⟩
    · rintro ⟨w1, o1, o2, h1, h2, rfl⟩
      cases h1
      exact ⟨_, h2, _, rfl, rfl⟩
  | cons q h ih =>
    intro w w' o
    simp only [List.cons_append, run, Option.bind_eq_some_iff, Option.map_eq_some_iff]
    constructor
    · rintro ⟨x, h1, ⟨c, d⟩, h2, h3⟩
      obtain ⟨w1, o1, o2, h4, h5, h6⟩ := ih.1 h2
      cases h3
      exact ⟨w1, x.2 :: o1, o2, ⟨x, h1, (w1, o1), h4, rfl⟩, h5, by rw [h6]; rfl⟩
    · rintro ⟨w1, o1, o2, ⟨x, h1, ⟨c, d⟩, h2, h3⟩, h5, rfl⟩
      cases h3
      exact ⟨x, h1, (w', d ++ [o2]), ih.2 ⟨c, d, o2, h2, h5, rfl⟩, rfl⟩

theorem held_snoc (k : Bytes) (h : List Req) (r : Req) : held k (h ++ [r]) = heldStep k (held k h) r := by
  simp [held, List.foldl_append]

/-- The table after one request. -/
theorem serve_keys {w w' : W} {r : Req} {o} (h : serve w r = some (w', o)) (k : Bytes) (hk : fold k ≠ []) :
    lookup w'.keys k = heldStep k (lookup w.keys k) r := by
  unfold heldStep
  by_cases hl : r.level < 0
  · obtain ⟨x, hx⟩ := serve_out w r hl
    rw [hx] at h
    cases h
    rw [if_pos hl]
  · rw [if_neg hl]
    rw [serve_in w r (by omega)] at h
    by_cases h1 : Says r "init"
    · rw [if_pos h1]
      rw [method_of (c := .init) h1 (by simp [methods])] at h
      simp only [exec] at h
      cases h
      rfl
    rw [if_neg h1]
    by_cases h2 : Says r "set"
    · rw [if_pos h2]
      rw [method_of (c := .set) h2 (by simp [methods])] at h
      simp only [exec] at h
      cases hi : r.m.info with
      | none =>
        rw [hi] at h
        simp only at h
        cases h
        cases r.m.subject <;> rfl
      | some v =>
        rw [hi] at h
        simp only at h
        cases hs : r.m.subject with
        | none =>
          rw [hs] at h
          simp only at h
          cases h
          simp only [lookup]
          rw [if_neg]
          rw [caseEq_fold]
          exact hk
        | some s =>
          rw [hs] at h
          simp only at h
          cases h
          exact lookup_put _ _ _ _
    · rw [if_neg h2]
      cases hm : method r.m.cmd with
      | none => rw [hm] at h; simp only at h; cases h; rfl
      | some c =>
        rw [hm] at h
        simp only at h
        cases c with
        | init =>
          exfalso
          rw [method_says, if_neg h1] at hm
          repeat' (split at hm)
          all_goals simp at hm
        | set =>
          exfalso
          rw [method_says, if_neg h1, if_neg h2] at hm
          repeat' (split at hm)
          all_goals simp at hm
        | get =>
          simp only [exec] at h
          split at h <;> (cases h; rfl)
        | sub =>
          simp only [exec, Option.map_eq_some_iff] at h
          obtain ⟨x, -, hx⟩ := h
          cases hx; rfl
        | hsub =>
          simp only [exec, Option.map_eq_some_iff] at h
          obtain ⟨x, -, hx⟩ := h
          cases hx; rfl
        | pub =>
          simp only [exec, Option.map_eq_some_iff] at h
          obtain ⟨x, -, hx⟩ := h
          cases hx; rfl
        | unsub => simp only [exec] at h; cases h; rfl

theorem run_held {h : List Req} {w : W} {o} (hr : run start h = some (w, o)) (k : Bytes) (hk : fold k ≠ []) :
    lookup w.keys k = held k h := by
  induction h using List.reverseRecOn generalizing w o with
  | nil => cases hr; rfl
  | append_singleton h r ih =>
    obtain ⟨w1, o1, o2, h1, h2, -⟩ := run_snoc.1 hr
    rw [serve_keys h2 k hk, held_snoc, ih h1]

/-! ### The subscriptions -/

/-- Nobody has sent `init`. -/
def NoInit (h : List Req) : Prop := ∀ r ∈ h, 0 ≤ r.level → ¬ Says r "init"

theorem serve_subs {w w' : W} {r : Req} {o} (h : serve w r = some (w', o)) (hn : 0 ≤ r.level → ¬ Says r "init") :
    w'.linked = w.linked ∧ ((subOp r = [] ∧ w'.subs = w.subs) ∨ ∃ op x, subOp r = [op] ∧ Sub.step w.subs op = some (w'.subs, x)) := by
  by_cases hl : r.level < 0
  · obtain ⟨x, hx⟩ := serve_out w r hl
    rw [hx] at h
    cases h
    exact ⟨rfl, Or.inl ⟨by simp [subOp, hl], rfl⟩⟩
  · have h1 := hn (by omega)
    rw [serve_in w r (by omega)] at h
    simp only [subOp, if_neg hl]
    by_cases h2 : Says r "sub"
    · rw [if_pos h2]
      rw [method_of (c := .sub) h2 (by simp [methods])] at h
      simp only [exec, Option.map_eq_some_iff] at h
      obtain ⟨⟨s, n⟩, hx, he⟩ := h
      cases he
      exact ⟨rfl, Or.inr ⟨_, .reply n, rfl, by simp [Sub.step, hx]⟩⟩
    rw [if_neg h2]
    by_cases h3 : Says r "hsub"
    · rw [if_pos h3]
      rw [method_of (c := .hsub) h3 (by simp [methods])] at h
      simp only [exec, Option.map_eq_some_iff] at h
      obtain ⟨⟨s, n⟩, hx, he⟩ := h
      cases he
      exact ⟨rfl, Or.inr ⟨_, .reply n, rfl, by simp [Sub.step, hx]⟩⟩
    rw [if_neg h3]
    by_cases h4 : Says r "unsub"
    · rw [if_pos h4]
      rw [method_of (c := .unsub) h4 (by simp [methods])] at h
      simp only [exec] at h
      cases h
      exact ⟨rfl, Or.inr ⟨_, _, rfl, rfl⟩⟩
    rw [if_neg h4]
    have hm := method_says r
    rw [if_neg h1, if_neg h2, if_neg h3, if_neg h4] at hm
    rw [hm] at h
    have key : w'.linked = w.linked ∧ w'.subs = w.subs := by
      by_cases h5 : Says r "get"
      · rw [if_pos h5] at h
        simp only [exec] at h
        split at h <;> (cases h; exact ⟨rfl, rfl⟩)
      rw [if_neg h5] at h
      by_cases h6 : Says r "set"
      · rw [if_pos h6] at h
        simp only [exec] at h
        split at h
        · cases h; exact ⟨rfl, rfl⟩
        · split at h <;> (cases h; exact ⟨rfl, rfl⟩)
      rw [if_neg h6] at h
      by_cases h7 : Says r "pub"
      · rw [if_pos h7] at h
        simp only [exec, Option.map_eq_some_iff] at h
        obtain ⟨x, -, he⟩ := h
        cases he
        exact ⟨rfl, rfl⟩
      rw [if_neg h7] at h
      simp only at h
      cases h
      exact ⟨rfl, rfl⟩
    exact ⟨key.1, Or.inl ⟨rfl, key.2⟩⟩

theorem run_subs {h : List Req} {w : W} {o} (hr : run start h = some (w, o)) (hn : NoInit h) :
    w.linked = true ∧ Sub.Hist (h.flatMap subOp) w.subs := by
  induction h using List.reverseRecOn generalizing w o with
  | nil => cases hr; exact ⟨rfl, .nil⟩
  | append_singleton h r ih =>
    obtain ⟨w1, o1, o2, h1, h2, -⟩ := run_snoc.1 hr
    obtain ⟨i1, i2⟩ := ih h1 fun q hq => hn q (by simp [hq])
    obtain ⟨e1, e2⟩ := serve_subs h2 (hn r (by simp))
    refine ⟨e1.trans i1, ?_⟩
    rw [List.flatMap_append]
    rcases e2 with ⟨e2, e3⟩ | ⟨op, x, e2, e3⟩
    · simp only [List.flatMap_cons, List.flatMap_nil, e2, List.append_nil, e3]
      exact i2
    · simp only [List.flatMap_cons, List.flatMap_nil, e2, List.append_nil]
      exact .snoc i2 e3

/-- Once the callback is gone it stays away. -/
theorem serve_unlinked {w w' : W} {r : Req} {o} (h : serve w r = some (w', o)) (hl : w.linked = false) : w'.linked = false := by
  by_cases h1 : 0 ≤ r.level → ¬ Says r "init"
  · rw [(serve_subs h h1).1, hl]
  · have h2 : 0 ≤ r.level ∧ Says r "init" := by
      by_cases a : 0 ≤ r.level
      · exact ⟨a, Decidable.byContradiction fun b => h1 fun _ => b⟩
      · exact absurd (fun x => absurd x a) h1
    rw [serve_in w r h2.1, method_of (c := .init) h2.2 (by simp [methods])] at h
    simp only [exec] at h
    cases h
    rfl

theorem run_unlinked {h : List Req} {w w' : W} {o} (hr : run w h = some (w', o)) (hl : w.linked = false) :
    o.length = h.length ∧ ∀ x ∈ h.zip o, 0 ≤ x.1.level → Says x.1 "pub" → x.2 = [] := by
  induction h generalizing w o with
  | nil => cases hr; exact ⟨rfl, fun x hx => by simp at hx⟩
  | cons r h ih =>
    simp only [run, Option.bind_eq_some_iff, Option.map_eq_some_iff] at hr
    obtain ⟨x, h1, y, h2, h3⟩ := hr
    cases h3
    obtain ⟨i1, i2⟩ := ih h2 (serve_unlinked (w' := x.1) (o := x.2) h1 hl)
    refine ⟨by simp [i1], ?_⟩
    intro z hz h4 h5
    simp only [List.zip_cons_cons, List.mem_cons] at hz
    rcases hz with rfl | hz
    · simp only at h4 h5 ⊢
      rw [serve_in w r h4, method_of (c := .pub) h5 (by simp [methods])] at h1
      simp only [exec, Option.map_eq_some_iff] at h1
      obtain ⟨c, -, he⟩ := h1
      rw [← he, hl]
      rfl
    · exact i2 z hz h4 h5

end Sis.Memdb
