import Verif.Io.StepLemmas
import Verif.Sdb.Refine
/-
Lemmas on two databases that have the same table and the same series: what the commands about these do is the same in both.
-/
namespace Sis.Io
open Sis
open Sis.Dyn (Db Field getN setN sameN)

/-- The two databases have the same table and the same series. -/
def Agree (tname key : Bytes) (c d : Cxt) : Prop := getN c.tabs tname = getN d.tabs tname ∧ getN c.sers key = getN d.sers key

/-- The two outcomes agree. -/
def AgreeO {β : Type} (tname key : Bytes) : Option (Cxt × β) → Option (Cxt × β) → Prop
  | none, none => True
  | some p, some q => Agree tname key p.1 q.1 ∧ p.2 = q.2
  | _, _ => False

theorem agreeO_map {β γ : Type} {tname key : Bytes} {x y : Option (Cxt × β)} (h : AgreeO tname key x y) {f : Cxt × β → Cxt × γ} (g : β → γ)
    (hf : ∀ p, f p = (p.1, g p.2)) : AgreeO tname key (x.map f) (y.map f) := by
  cases x with
  | none => cases y with
    | none => trivial
    | some q => exact h
  | some p => cases y with
    | none => exact h
    | some q => exact ⟨by rw [hf, hf]; exact h.1, by rw [hf, hf]; exact congrArg g h.2⟩

theorem agreeO_bind {β γ : Type} {tname key : Bytes} {x y : Option (Cxt × β)} (h : AgreeO tname key x y) {f : Cxt × β → Option (Cxt × γ)}
    (hf : ∀ c d b, Agree tname key c d → AgreeO tname key (f (c, b)) (f (d, b))) : AgreeO tname key (x.bind f) (y.bind f) := by
  cases x with
  | none => cases y with
    | none => trivial
    | some q => exact h.elim
  | some p => cases y with
    | none => exact h.elim
    | some q =>
      obtain ⟨c, b⟩ := p
      obtain ⟨d, b'⟩ := q
      obtain ⟨h1, h2⟩ := h
      cases h2
      exact hf c d b h1

theorem agreeO_both {γ β : Type} {tname key : Bytes} (x : Option γ) {f g : γ → Option (Cxt × β)} (h : ∀ a, AgreeO tname key (f a) (g a)) :
    AgreeO tname key (x.bind f) (x.bind g) := by
  cases x with
  | none => trivial
  | some a => exact h a

theorem agree_set {tname key k : Bytes} (hk : k.map lower = key.map lower) {c d : Cxt} (h : Agree tname key c d) (s : Ser) :
    Agree tname key { c with sers := (setN c.sers k s).1 } { d with sers := (setN d.sers k s).1 } := by
  refine ⟨h.1, ?_⟩
  dsimp only
  rw [Sdb.getN_setN, Sdb.getN_setN, if_pos (Dyn.sameN_iff.2 hk.symm), if_pos (Dyn.sameN_iff.2 hk.symm)]

theorem agree_get {tname key k : Bytes} (hk : k.map lower = key.map lower) {c d : Cxt} (h : Agree tname key c d) : getN c.sers k = getN d.sers k := by
  rw [Dyn.getN_congr _ (Dyn.sameN_iff.2 hk), Dyn.getN_congr d.sers (Dyn.sameN_iff.2 hk), h.2]

theorem keyOf_same {tname key k : Bytes} (h : KeyOf tname key) (hk : k.map lower = key.map lower) : KeyOf tname k := by
  obtain ⟨p, t, rfl, hp, ht, hl⟩ := h
  rw [List.map_append, List.map_cons] at hk
  obtain ⟨p', r, rfl, e1, e2⟩ := List.map_eq_append_iff.1 hk
  obtain ⟨ch, t', rfl, e3, e4⟩ := List.map_eq_cons_iff.1 e2
  have hch : ch = 46 := (Sdb.lower_dot ch).1 (by rw [e3]; decide)
  subst hch
  refine ⟨p', t', rfl, ?_, ?_, e4.trans hl⟩
  · intro x hx he
    subst he
    have : lower 46 ∈ p.map lower := by rw [← e1]; exact List.mem_map_of_mem hx
    obtain ⟨y, hy, hy2⟩ := List.mem_map.1 this
    exact hp y hy ((Sdb.lower_dot y).1 (by rw [hy2]; decide))
  · rintro rfl
    cases t with
    | nil => exact ht rfl
    | cons a b => cases e4

section
variable {tname key k : Bytes} (hk : KeyOf tname key) (hs : k.map lower = key.map lower) {c d : Cxt} (h : Agree tname key c d)
include hk hs h

theorem newSer_agree : AgreeO tname key (newSer c k) (newSer d k) := by
  obtain ⟨-, t, h1, h2⟩ := name_of_key (keyOf_same hk hs)
  unfold newSer
  rw [h1, Option.bind_some, Option.bind_some, Dyn.getN_congr _ h2, Dyn.getN_congr d.tabs h2, h.1]
  cases getN d.tabs tname with
  | none => trivial
  | some t => exact ⟨agree_set hs h _, rfl⟩

theorem update_agree (e : Env) (b : Bytes) : AgreeO tname key (update e c k b) (update e d k b) := by
  have hput : ∀ (c d : Cxt) (s : Ser), Agree tname key c d → ∀ (x : Option (Option Ser)),
      AgreeO tname key (x.map fun | none => (c, (0 : Int)) | some s => ({ c with sers := (setN c.sers k s).1 }, 1))
        (x.map fun | none => (d, (0 : Int)) | some s => ({ d with sers := (setN d.sers k s).1 }, 1)) := by
    intro c d s h x
    rcases x with _ | _ | s
    · trivial
    · exact ⟨h, rfl⟩
    · exact ⟨agree_set hs h _, rfl⟩
  unfold update
  rw [agree_get hs h]
  cases getN d.sers k with
  | some s =>
    dsimp only
    split
    · trivial
    · exact hput c d s h _
  | none =>
    have := newSer_agree hk hs h
    dsimp only
    cases h1 : newSer c k with
    | none =>
      rw [h1] at this
      cases h2 : newSer d k with
      | none => exact ⟨h, rfl⟩
      | some q => rw [h2] at this; exact this.elim
    | some p =>
      rw [h1] at this
      cases h2 : newSer d k with
      | none => rw [h2] at this; exact this.elim
      | some q =>
        rw [h2] at this
        obtain ⟨c', s⟩ := p
        obtain ⟨d', s'⟩ := q
        obtain ⟨t1, t2⟩ := this
        cases t2
        exact hput c' d' s t1 _

theorem dbOfKey_agree : AgreeO tname key (dbOfKey c k) (dbOfKey d k) := by
  unfold dbOfKey
  rw [agree_get hs h]
  cases getN d.sers k with
  | some s => exact ⟨h, rfl⟩
  | none => exact agreeO_map (newSer_agree hk hs h) Ser.tbl fun _ => rfl

theorem setChars_agree (e : Env) (info : Option Bytes) : AgreeO tname key (setChars e c k info) (setChars e d k info) := by
  unfold setChars
  split
  · split
    · exact ⟨h, rfl⟩
    · refine agreeO_bind (dbOfKey_agree hk hs h) ?_
      intro c d t h
      dsimp only
      cases Rec.setChars e.fl t.db _ with
      | none => trivial
      | some x => cases x with
        | none => exact ⟨h, rfl⟩
        | some b => exact update_agree hk hs h e b
  · exact ⟨h, rfl⟩

end

theorem step_agree {tname key : Bytes} (hk : KeyOf tname key) {c d : Cxt} (h : Agree tname key c d) (e : Env) {m : Cmd} (hm : Own tname key m) :
    AgreeO tname key (step e c m) (step e d m) := by
  cases m with
  | create n info =>
    have hm : n.map lower = tname.map lower := hm
    have hg : getN c.tabs n = getN d.tabs n := by
      rw [Dyn.getN_congr _ (Dyn.sameN_iff.2 hm), Dyn.getN_congr d.tabs (Dyn.sameN_iff.2 hm), h.1]
    have hset : ∀ t, Agree tname key { c with tabs := (setN c.tabs n t).1 } { d with tabs := (setN d.tabs n t).1 } := by
      intro t
      refine ⟨?_, h.2⟩
      dsimp only
      rw [Sdb.getN_setN, Sdb.getN_setN, if_pos (Dyn.sameN_iff.2 hm.symm), if_pos (Dyn.sameN_iff.2 hm.symm)]
    simp only [step, create, Option.bind_eq_bind]
    refine agreeO_both _ fun x => ?_
    cases x with
    | none => exact ⟨h, rfl⟩
    | some nd =>
      refine agreeO_both _ fun y => ?_
      cases y with
      | none => exact ⟨h, rfl⟩
      | some t =>
        dsimp only
        rw [hg]
        cases getN d.tabs n with
        | none => exact ⟨hset t, rfl⟩
        | some old =>
          dsimp only
          split
          · exact ⟨h, rfl⟩
          · exact ⟨hset t, rfl⟩
  | set k info =>
    simp only [step, set]
    split
    · exact agreeO_map (setChars_agree hk hm h e info) Reply.int fun _ => rfl
    · exact ⟨h, rfl⟩
  | bset k info =>
    simp only [step, bset]
    split
    · cases info with
      | none => trivial
      | some b => exact agreeO_map (update_agree hk hm h e b) Reply.int fun _ => rfl
    · exact ⟨h, rfl⟩
  | get k info =>
    have hm : k.map lower = key.map lower := hm
    have : get e c k info = get e d k info := by unfold get; rw [agree_get hm h]
    simp only [step]
    rw [this]
    cases get e d k info with
    | none => trivial
    | some r => exact ⟨h, rfl⟩
  | del k info =>
    have hm : k.map lower = key.map lower := hm
    simp only [step, del, Option.bind_eq_bind]
    cases info with
    | none => trivial
    | some i =>
      simp only [Option.bind_some]
      cases Json.load i with
      | none => trivial
      | some x => cases x with
        | none => exact ⟨h, rfl⟩
        | some nd =>
          simp only [Option.bind_some]
          split
          · unfold delSer
            rw [agree_get hm h]
            split
            · exact ⟨h, rfl⟩
            · split
              · exact ⟨h, rfl⟩
              · split
                · exact ⟨agree_set hm h _, rfl⟩
                · exact ⟨agree_set hm h _, rfl⟩
          · exact ⟨h, rfl⟩

theorem run_alone {e : Env} {tname key : Bytes} (hk : KeyOf tname key) {mine : Cmd → Bool} : ∀ {ms : List Cmd} {c d : Cxt},
    (∀ m ∈ ms, if mine m = true then Own tname key m else Elsewhere tname key m) → Agree tname key c d →
    ∀ {c' : Cxt} {rs : List Reply}, run e c ms = some (c', rs) →
    ∃ d', run e d (ms.filter mine) = some (d', ((ms.zip rs).filter fun p => mine p.1).map (·.2)) ∧ Agree tname key c' d' := by
  intro ms
  induction ms with
  | nil =>
    intro c d _ h c' rs hr
    cases hr
    exact ⟨d, rfl, h⟩
  | cons m ms ih =>
    intro c d hm h c' rs hr
    simp only [run, Option.bind_eq_bind] at hr
    obtain ⟨⟨c1, r⟩, e1, hr⟩ := Option.bind_eq_some_iff.1 hr
    obtain ⟨⟨c2, rs2⟩, e2, hr⟩ := Option.bind_eq_some_iff.1 hr
    cases hr
    have hm1 := hm m (by simp)
    by_cases hb : mine m = true
    · rw [if_pos hb] at hm1
      have ha := step_agree hk h e hm1
      rw [e1] at ha
      cases hd : step e d m with
      | none => rw [hd] at ha; exact ha.elim
      | some q =>
        obtain ⟨d1, r'⟩ := q
        rw [hd] at ha
        obtain ⟨h1, h2⟩ := ha
        cases h2
        obtain ⟨d', g1, g2⟩ := ih (fun m hm' => hm m (by simp [hm'])) h1 e2
        refine ⟨d', ?_, g2⟩
        rw [List.filter_cons_of_pos hb, List.zip_cons_cons, List.filter_cons_of_pos (p := fun p : Cmd × Reply => mine p.1) hb]
        simp only [run, hd, Option.bind_eq_bind, Option.bind_some, g1, List.map_cons]
    · rw [if_neg hb] at hm1
      obtain ⟨s1, s2⟩ := other_same hm1 e1
      obtain ⟨d', g1, g2⟩ := ih (fun m hm' => hm m (by simp [hm'])) ⟨s1.trans h.1, s2.trans h.2⟩ e2
      refine ⟨d', ?_, g2⟩
      rw [List.filter_cons_of_neg hb, List.zip_cons_cons, List.filter_cons_of_neg (p := fun p : Cmd × Reply => mine p.1) hb, g1]

/-! ### Refusals -/

theorem nonDel_zero {α : Type} (l : List α) (a : Int) : Fmap.nonDel l a 0 = l := by
  unfold Fmap.nonDel Fmap.notsCount
  have h0 : ¬ (((a % 2 ^ 64).toNat : Int) < 0) := by omega
  simp only [h0, if_false]
  split
  · rfl
  · rename_i s c h
    split at h
    · cases h
    · split at h
      · rename_i h1 h2; omega
      · cases h; rfl

/-- A command that is refused leaves each series as it is, or makes an empty one of the key. -/
theorem refused_same {e : Env} {c : Cxt} {m : Cmd} {c' : Cxt} {r : Reply} (h : step e c m = some (c', r)) (hr : Refused r) (key : Bytes) :
    getN c'.sers key = getN c.sers key ∨ (Writes key m ∧ getN c.sers key = none) := by
  have hset : ∀ (k : Bytes) (s : Ser), getN (setN c.sers k s).1 key = getN c.sers key ∨ k.map lower = key.map lower := by
    intro k s
    rw [Sdb.getN_setN]
    split
    · rename_i hs; exact .inr (Dyn.sameN_iff.1 hs).symm
    · exact .inl rfl
  have hnew : ∀ k c1 s, getN c.sers k = none → newSer c k = some (c1, s) →
      getN c1.sers key = getN c.sers key ∨ (k.map lower = key.map lower ∧ getN c.sers key = none) := by
    intro k c1 s h0 h1
    obtain ⟨t, -, ht⟩ := Option.map_eq_some_iff.1 h1
    cases ht
    rcases hset k ⟨t, ⟨[], [], 0, 0, 0⟩⟩ with hx | hx
    · exact .inl hx
    · exact .inr ⟨hx, by rw [← Dyn.getN_congr _ (Dyn.sameN_iff.2 hx), h0]⟩
  have hupd : ∀ k b o, o ≤ 0 → update e c k b = some (c', o) →
      getN c'.sers key = getN c.sers key ∨ (k.map lower = key.map lower ∧ getN c.sers key = none) := by
    intro k b o ho hu
    unfold update at hu
    cases hg : getN c.sers k with
    | some s =>
      simp only [hg] at hu
      split at hu
      · cases hu
      · obtain ⟨x, -, hx⟩ := Option.map_eq_some_iff.1 hu
        cases x <;> cases hx
        · exact .inl rfl
        · omega
    | none =>
      simp only [hg] at hu
      cases hnw : newSer c k with
      | none => rw [hnw] at hu; cases hu; exact .inl rfl
      | some p =>
        obtain ⟨c2, s⟩ := p
        simp only [hnw] at hu
        obtain ⟨x, -, hx⟩ := Option.map_eq_some_iff.1 hu
        cases x <;> cases hx
        · exact hnew k _ _ hg hnw
        · omega
  cases m with
  | create n info =>
    simp only [step, create, Option.bind_eq_bind] at h
    obtain ⟨x, -, h⟩ := Option.bind_eq_some_iff.1 h
    cases x with
    | none => cases h; exact .inl rfl
    | some nd =>
      obtain ⟨y, -, h⟩ := Option.bind_eq_some_iff.1 h
      cases y with
      | none => cases h; exact .inl rfl
      | some t =>
        cases hg : getN c.tabs n with
        | none => simp only [hg] at h; cases h; exact .inl rfl
        | some old =>
          simp only [hg] at h
          split at h <;> cases h <;> exact .inl rfl
  | set k info =>
    simp only [step, set] at h
    split at h
    · obtain ⟨⟨c1, o⟩, hs, hx⟩ := Option.map_eq_some_iff.1 h
      cases hx
      have ho : o ≤ 0 := hr
      unfold setChars at hs
      split at hs
      · split at hs
        · cases hs; exact .inl rfl
        · simp only [Option.bind_eq_bind] at hs
          obtain ⟨⟨c2, t⟩, hd, hs⟩ := Option.bind_eq_some_iff.1 hs
          obtain ⟨x, -, hs⟩ := Option.bind_eq_some_iff.1 hs
          unfold dbOfKey at hd
          split at hd
          · cases hd
            cases x with
            | none => cases hs; exact .inl rfl
            | some b => exact hupd k b o ho hs
          · rename_i hg
            obtain ⟨⟨c3, s⟩, hn, hx⟩ := Option.map_eq_some_iff.1 hd
            cases hx
            have h3 := hnew k _ _ hg hn
            cases x with
            | none => cases hs; exact h3
            | some b =>
              obtain ⟨t, -, ht⟩ := Option.map_eq_some_iff.1 hn
              cases ht
              dsimp only at hs
              unfold update at hs
              have hg2 : getN (setN c.sers k ⟨t, ⟨[], [], 0, 0, 0⟩⟩).1 k = some ⟨t, ⟨[], [], 0, 0, 0⟩⟩ := by
                rw [Sdb.getN_setN, if_pos (Dyn.sameN_iff.2 rfl)]
              simp only [hg2] at hs
              split at hs
              · cases hs
              · obtain ⟨x, -, hx⟩ := Option.map_eq_some_iff.1 hs
                cases x <;> cases hx
                · exact h3
                · omega
      · cases hs; exact .inl rfl
    · cases h; exact .inl rfl
  | bset k info =>
    simp only [step, bset] at h
    split at h
    · obtain ⟨b, -, h⟩ := Option.bind_eq_some_iff.1 h
      obtain ⟨⟨c1, o⟩, hs, hx⟩ := Option.map_eq_some_iff.1 h
      cases hx
      exact hupd k b o hr hs
    · cases h; exact .inl rfl
  | get k info =>
    obtain ⟨x, -, hx⟩ := Option.map_eq_some_iff.1 h
    cases hx
    exact .inl rfl
  | del k info =>
    simp only [step, del, Option.bind_eq_bind] at h
    obtain ⟨i, -, h⟩ := Option.bind_eq_some_iff.1 h
    obtain ⟨x, -, h⟩ := Option.bind_eq_some_iff.1 h
    cases x with
    | none => cases h; exact .inl rfl
    | some nd =>
      dsimp only at h
      split at h
      · injection h with h
        injection h with h1 h2
        subst h2
        have hr : (delSer e c k nd).2 ≤ 0 := hr
        subst h1
        unfold delSer at hr ⊢
        cases hq : delOf nd with
        | none => exact .inl rfl
        | some a =>
          simp only [hq] at hr ⊢
          cases hg : getN c.sers k with
          | none => exact .inl rfl
          | some s =>
            have keep : ∀ s', s' = s → getN (setN c.sers k s').1 key = getN c.sers key := by
              rintro s' rfl
              rw [Sdb.getN_setN]
              split
              · rename_i hs; rw [Dyn.getN_congr _ hs, hg]
              · rfl
            simp only [hg] at hr ⊢
            split at hr <;> rename_i hi
            · refine .inl ?_
              rw [if_pos hi]
              refine keep _ ?_
              have : (Fmap.tsdbDel (table e s.tbl) e.goto s.unit a.1).2 = s.unit := by
                have hr : (Fmap.tsdbDel (table e s.tbl) e.goto s.unit a.1).1 ≤ 0 := hr
                unfold Fmap.tsdbDel at hr ⊢
                dsimp only at hr ⊢
                split
                · rfl
                · rename_i h0
                  rw [if_neg h0] at hr
                  split
                  · rename_i h1
                    rw [if_pos h1] at hr
                    dsimp only at hr
                    omega
                  · rfl
              rw [this]
            · refine .inl ?_
              rw [if_neg hi]
              refine keep _ ?_
              rw [nonDel_zero]
      · cases h; exact .inl rfl

end Sis.Io
