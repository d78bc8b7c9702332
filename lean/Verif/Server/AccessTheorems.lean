import Verif.Server.Access
/-
C46 to C49, C66 and C67: who may run what.
-/
namespace Sis.Access

/-! Specification, in terms of the history only. -/

/-- The user a connection is logged in as, going by what was seen: the last successful login not followed by a close. -/
def who (cid : Int) : List (Ev × List Out) → Option Nat :=
  List.foldl (fun w x => match x.1 with
    | .close c => if c = cid then none else w
    | _ => x.2.foldl (fun w o => match o with
      | .authed c i => if c = cid then some i else w
      | _ => w) w) none

/-- Equal strings up to case. -/
def same (a b : Bytes) : Prop := a.map lower = b.map lower

/-! Helpers. -/

private theorem caseEq_cut (a b : Bytes) :
    caseEq a b = true ↔ (a.takeWhile (· != 0)).map lower = (b.takeWhile (· != 0)).map lower := by
  have h0 : lower 0 = 0 := by decide
  induction a generalizing b with
  | nil =>
    cases b with
    | nil => simp [caseEq]
    | cons y b =>
      by_cases hy : y = 0
      · subst hy; simp [caseEq]
      · have : lower 0 ≠ lower y := by
          rw [h0]; exact fun h => hy (lower_eq_zero.1 h.symm)
        simp [caseEq, this, hy]
  | cons x a ih =>
    cases b with
    | nil =>
      by_cases hx : x = 0
      · subst hx; simp [caseEq]
      · have : lower x ≠ lower 0 := by
          rw [h0]; exact fun h => hx (lower_eq_zero.1 h)
        simp [caseEq, this, hx]
    | cons y b =>
      by_cases hx : x = 0
      · subst hx
        by_cases hy : y = 0
        · subst hy; simp [caseEq]
        · have : lower 0 ≠ lower y := by
            rw [h0]; exact fun h => hy (lower_eq_zero.1 h.symm)
          simp [caseEq, this, hy]
      · by_cases hy : y = 0
        · subst hy
          have : lower x ≠ lower 0 := by
            rw [h0]; exact fun h => hx (lower_eq_zero.1 h)
          simp [caseEq, this, hx]
        · simp [caseEq, hx, hy, ih]

private theorem caseEq_comm' {a b : Bytes} (h : caseEq a b = true) : caseEq b a = true :=
  (caseEq_cut _ _).2 ((caseEq_cut _ _).1 h).symm

private theorem caseEq_trans' {a b c : Bytes} (h : caseEq a b = true) (g : caseEq b c = true) : caseEq a c = true :=
  (caseEq_cut _ _).2 (((caseEq_cut _ _).1 h).trans ((caseEq_cut _ _).1 g))

private theorem caseEq_same {a b : Bytes} (ha : CStr a) (hb : CStr b) : caseEq a b = true ↔ same a b := caseEq_iff ha hb

private theorem findMethod_some {t cmd m} (h : findMethod t cmd = some m) : m ∈ t ∧ ∃ c, cmd = some c ∧ caseEq m.name c = true := by
  cases cmd with
  | none => simp [findMethod] at h
  | some c =>
    simp only [findMethod, Option.bind_some] at h
    exact ⟨List.mem_of_find?_eq_some h, c, rfl, by simpa using List.find?_some h⟩

private theorem allowed_some {works lv r m} (h : allowed works lv r = some m) :
    accessMethod m.access lv = true ∧ (∃ c, r.cmd = some c ∧ caseEq m.name c = true) ∧
      (r.service = none → m ∈ serverMethods) ∧ (∀ sv, r.service = some sv → ∃ t, works sv = some t ∧ m ∈ t) := by
  cases hs : r.service with
  | none =>
    simp only [allowed, hs, Option.filter_eq_some_iff] at h
    obtain ⟨h1, h2⟩ := findMethod_some h.1
    exact ⟨h.2, h2, fun _ => h1, fun _ e => nomatch e⟩
  | some sv =>
    simp only [allowed, hs] at h
    cases hw : works sv with
    | none => simp [hw] at h
    | some t =>
      simp only [hw, Option.bind_some, Option.filter_eq_some_iff] at h
      obtain ⟨h1, h2⟩ := findMethod_some h.1
      refine ⟨h.2, h2, nofun, fun sv' e => ?_⟩
      cases e
      exact ⟨t, hw, h1⟩

/-- What a login does. -/
private theorem auth_cases {s r s' o} (h : auth s r = some (s', o)) :
    (s' = s ∧ o = []) ∨ ∃ a i u n p x, s.access = some a ∧ r.body = .json (some n) (some p) x ∧ s.users[i]? = some u ∧
      caseEq u.name n = true ∧ caseEq u.password p = true ∧ o = [.authed r.cid i] ∧
      s' = { s with access := some fun c => if c = r.cid then some i else a c } := by
  unfold auth at h
  cases ha : s.access with
  | none => simp [ha] at h; exact Or.inl ⟨h.1.symm, h.2⟩
  | some a =>
    simp only [ha] at h
    cases hb : r.body with
    | absent => simp [hb] at h
    | bad => simp [hb] at h; exact Or.inl ⟨h.1.symm, h.2⟩
    | json n p x =>
      simp only [hb] at h
      cases hf : findUser s.users n with
      | none => simp [hf] at h
      | some i =>
        simp only [hf] at h
        cases n with
        | none => simp [findUser] at hf
        | some n =>
          simp only [findUser, Option.bind_some, List.findIdx?_eq_some_iff_getElem] at hf
          obtain ⟨hi, hn, -⟩ := hf
          have hu : s.users[i]? = some s.users[i] := List.getElem?_eq_getElem hi
          simp only [hu] at h
          cases p with
          | none => simp at h; exact Or.inl ⟨h.1.symm, h.2⟩
          | some p =>
            simp only at h
            split at h
            · rename_i hp
              simp only [Option.some.injEq, Prod.mk.injEq] at h
              exact Or.inr ⟨a, i, _, n, p, x, rfl, rfl, hu, hn, hp, h.2.symm, h.1.symm⟩
            · simp at h; exact Or.inl ⟨h.1.symm, h.2⟩

private theorem setuser_cases {s r s' o} (h : setuser s r = some (s', o)) :
    o = [] ∧ s'.access = s.access ∧ s'.queue = s.queue ∧ s.users.length ≤ s'.users.length := by
  unfold setuser at h
  split at h
  · exact nomatch h
  · simp at h; obtain ⟨rfl, rfl⟩ := h; simp
  · split at h
    · simp at h; obtain ⟨rfl, rfl⟩ := h; simp
    · simp at h; obtain ⟨rfl, rfl⟩ := h; simp

/-- What handling a request does. -/
private theorem handle_cases {s works r s' o} (h : handle s works r = some (s', o)) :
    (s' = s ∧ o = [.denied r.cid] ∧ level s r.cid < 0 ∧ isAuth r.cmd = false) ∨
    (s' = s ∧ o = [.noMethod r.cid]) ∨
    ∃ m o', o = .ran r.cid r.service m :: o' ∧ (level s r.cid < 0 → isAuth r.cmd = true) ∧ allowed works (level s r.cid) r = some m ∧
      ((s' = s ∧ o' = []) ∨ (r.service = none ∧ m.name = str "auth" ∧ auth s r = some (s', o')) ∨
        (r.service = none ∧ m.name = str "setuser" ∧ setuser s r = some (s', o'))) := by
  unfold handle at h
  split at h
  · rename_i hc
    simp at h
    exact Or.inl ⟨h.1.symm, h.2.symm, hc.1, hc.2⟩
  · rename_i hc
    cases hm : allowed works (level s r.cid) r with
    | none => simp [hm] at h; exact Or.inr (Or.inl ⟨h.1.symm, h.2.symm⟩)
    | some m =>
      have hlv : level s r.cid < 0 → isAuth r.cmd = true := by
        intro hl
        cases hx : isAuth r.cmd with
        | true => rfl
        | false => exact absurd ⟨hl, hx⟩ hc
      refine Or.inr (Or.inr ⟨m, ?_⟩)
      simp only [hm] at h
      cases hs : r.service with
      | some sv =>
        simp [hs] at h
        exact ⟨[], by rw [h.2], hlv, rfl, Or.inl ⟨h.1.symm, rfl⟩⟩
      | none =>
        simp only [hs, Option.map_eq_some_iff] at h
        obtain ⟨⟨s1, o1⟩, h1, h2⟩ := h
        simp only [Prod.mk.injEq] at h2
        obtain ⟨rfl, rfl⟩ := h2
        refine ⟨o1, rfl, hlv, rfl, ?_⟩
        unfold runServer at h1
        split at h1
        · exact Or.inr (Or.inl ⟨rfl, ‹_›, h1⟩)
        · split at h1
          · exact Or.inr (Or.inr ⟨rfl, ‹_›, h1⟩)
          · simp at h1; exact Or.inl ⟨h1.1.symm, h1.2⟩

private theorem who_snoc (cid : Int) (h : List (Ev × List Out)) (x : Ev × List Out) :
    who cid (h ++ [x]) = match x.1 with
      | .close c => if c = cid then none else who cid h
      | _ => x.2.foldl (fun w o => match o with
        | .authed c i => if c = cid then some i else w
        | _ => w) (who cid h) := by
  simp [who, List.foldl_append]

/-- The map of logged-in connections is what was seen. -/
private theorem access_who {users : List User} (hu : users ≠ []) {h s} (H : Hist (start users) h s) :
    ∃ a, s.access = some a ∧ ∀ cid, a cid = who cid h := by
  induction H with
  | nil =>
    have : users.length > 0 := List.length_pos_iff.2 hu
    exact ⟨fun _ => none, by simp [start, this], fun _ => rfl⟩
  | @snoc h s e s' o _ hst ih =>
    obtain ⟨a, ha, hw⟩ := ih
    cases e with
    | recv r =>
      simp [step] at hst
      obtain ⟨rfl, rfl⟩ := hst
      exact ⟨a, ha, fun cid => by rw [who_snoc]; exact hw cid⟩
    | close c =>
      simp [step] at hst
      obtain ⟨rfl, rfl⟩ := hst
      refine ⟨fun x => if x = c then none else a x, by simp [ha], fun cid => ?_⟩
      rw [who_snoc]
      simp only [hw]
      by_cases e : c = cid
      · simp [e]
      · simp [e, Ne.symm e]
    | work works =>
      simp only [step] at hst
      cases hq : s.queue with
      | nil =>
        simp [hq] at hst
        obtain ⟨rfl, rfl⟩ := hst
        exact ⟨a, ha, fun cid => by rw [who_snoc]; exact hw cid⟩
      | cons r q =>
        simp only [hq] at hst
        rcases handle_cases hst with ⟨rfl, rfl, -, -⟩ | ⟨rfl, rfl⟩ | ⟨m, o', rfl, -, -, hx⟩
        · exact ⟨a, ha, fun cid => by rw [who_snoc]; exact hw cid⟩
        · exact ⟨a, ha, fun cid => by rw [who_snoc]; exact hw cid⟩
        · rcases hx with ⟨rfl, rfl⟩ | ⟨-, -, hx⟩ | ⟨-, -, hx⟩
          · exact ⟨a, ha, fun cid => by rw [who_snoc]; exact hw cid⟩
          · rcases auth_cases hx with ⟨rfl, rfl⟩ | ⟨a', i, u, n, p, x, ha', -, -, -, -, rfl, rfl⟩
            · exact ⟨a, ha, fun cid => by rw [who_snoc]; exact hw cid⟩
            · simp only at ha'
              rw [ha] at ha'
              cases ha'
              refine ⟨_, rfl, fun cid => ?_⟩
              rw [who_snoc]
              simp only [List.foldl_cons, List.foldl_nil, hw]
              by_cases e : r.cid = cid
              · simp [e]
              · simp [e, Ne.symm e]
          · obtain ⟨rfl, h1, -, -⟩ := setuser_cases hx
            exact ⟨a, by rw [h1]; exact ha, fun cid => by rw [who_snoc]; exact hw cid⟩

private theorem level_who {users : List User} (hu : users ≠ []) {h s} (H : Hist (start users) h s) (q : List Req) (cid : Int) :
    level { s with queue := q } cid = match (who cid h).bind (s.users[·]?) with | none => -1 | some u => u.access := by
  obtain ⟨a, ha, hw⟩ := access_who hu H
  simp only [level, ha, hw]
  rfl

/-- An output that a command was carried out comes from handling a request. -/
private theorem ran_of_step {s e s' o cid svc m} (h : step s e = some (s', o)) (hm : Out.ran cid svc m ∈ o) :
    ∃ works r q, e = .work works ∧ s.queue = r :: q ∧ cid = r.cid ∧ svc = r.service ∧
      (level { s with queue := q } cid < 0 → isAuth r.cmd = true) ∧ allowed works (level { s with queue := q } cid) r = some m := by
  cases e with
  | recv r => simp [step] at h; simp [h.2] at hm
  | close c => simp [step] at h; simp [h.2] at hm
  | work works =>
    simp only [step] at h
    cases hq : s.queue with
    | nil => simp [hq] at h; simp [h.2] at hm
    | cons r q =>
      simp only [hq] at h
      refine ⟨works, r, q, rfl, rfl, ?_⟩
      rcases handle_cases h with ⟨rfl, rfl, -, -⟩ | ⟨rfl, rfl⟩ | ⟨m', o', rfl, h1, h2, hx⟩
      · simp at hm
      · simp at hm
      · have : cid = r.cid ∧ svc = r.service ∧ m = m' := by
          rcases List.mem_cons.1 hm with hm | hm
          · simpa using hm
          · rcases hx with ⟨-, rfl⟩ | ⟨-, -, hx⟩ | ⟨-, -, hx⟩
            · exact absurd hm (List.not_mem_nil)
            · rcases auth_cases hx with ⟨-, rfl⟩ | ⟨_, i, _, _, _, _, -, -, -, -, -, rfl, -⟩
              · exact absurd hm (List.not_mem_nil)
              · simp at hm
            · rw [(setuser_cases hx).1] at hm
              exact absurd hm (List.not_mem_nil)
        obtain ⟨rfl, rfl, rfl⟩ := this
        exact ⟨rfl, rfl, h1, h2⟩

/-! C46 -/

/-- C46, when users were configured before the server started: a command other than auth is carried out only on a connection on
which a login succeeded that was not followed by a close, after any history. -/
theorem C46_only_auth_partial (users : List User) (hu : users ≠ []) (h : List (Ev × List Out)) (s s' : St) (e : Ev) (o : List Out)
    (H : Hist (start users) h s) (hs : step s e = some (s', o)) (cid : Int) (svc : Option Bytes) (m : Method)
    (hm : Out.ran cid svc m ∈ o) (hna : ¬ caseEq m.name (str "auth") = true) : who cid h ≠ none := by
  obtain ⟨works, r, q, rfl, -, rfl, rfl, h1, h2⟩ := ran_of_step hs hm
  intro hw
  have hl : level { s with queue := q } r.cid = -1 := by rw [level_who hu H, hw]; rfl
  have := h1 (by rw [hl]; decide)
  obtain ⟨-, ⟨c, hc, hn⟩, -, -⟩ := allowed_some h2
  rw [hc] at this
  exact hna (caseEq_trans' hn (caseEq_comm' this))

/-- C46: a request other than auth from a connection that is not logged in gets the no-authority reply and nothing else happens. -/
theorem C46_denied_partial (users : List User) (hu : users ≠ []) (h : List (Ev × List Out)) (s : St)
    (H : Hist (start users) h s) (works : Bytes → Option (List Method)) (r : Req) (q : List Req) (hq : s.queue = r :: q)
    (hw : who r.cid h = none) (hr : ∀ c, r.cmd = some c → caseEq (str "auth") c = false) :
    step s (.work works) = some ({ s with queue := q }, [.denied r.cid]) := by
  have hr : isAuth r.cmd = false := by
    cases hc : r.cmd with
    | none => rfl
    | some c => exact hr c hc
  have hl : level { s with queue := q } r.cid = -1 := by rw [level_who hu H, hw]; rfl
  simp [step, hq, handle, hl, hr]

/-- A request for a data set. -/
def ask (cid : Int) (svc cmd : String) : Req := ⟨cid, some (str svc), some (str cmd), .absent⟩

/-- A login. -/
def login (cid : Int) (user pass : String) : Req := ⟨cid, none, some (str "auth"), .json (some (str user)) (some (str pass)) none⟩

/-- A request to set a user. -/
def adduser (cid : Int) (user pass acc : String) : Req :=
  ⟨cid, none, some (str "setuser"), .json (some (str user)) (some (str pass)) (some (str acc))⟩

/-- One data set, `db`, served by sisdb. -/
def oneDb : Bytes → Option (List Method) := fun n => if n = str "db" then some sisdbMethods else none

/-- The same, as a list of events: the requests one by one, each handled at once. -/
def serve (rs : List Req) : List Ev := rs.flatMap fun r => [.recv r, .work oneDb]

/-- A reader and a writer. -/
def twoUsers : List User := [⟨str "rd", str "Secret", aREAD⟩, ⟨str "wr", str "pw", aWRITE⟩]

/-- The outputs of a run. -/
def outs (s : St) (evs : List Ev) : Option (List Out) := (run s evs).map fun x => x.2.flatten

example : outs (start twoUsers) (serve [ask 1 "db" "get", login 1 "rd" "Secret", ask 1 "db" "get", ask 1 "db" "set", ask 2 "db" "get"]) =
    some [.denied 1, .ran 1 none ⟨str "auth", 1⟩, .authed 1 0, .ran 1 (some (str "db")) ⟨str "get", 1⟩, .noMethod 1, .denied 2] := by
  decide +kernel

/-- C46 fails for users configured while the server runs: nobody is asked to log in, and anyone may delete. -/
theorem C46_runtime_user_violated :
    ∃ s os, run (start []) (serve [adduser 1 "root" "pw" "admin"]) = some (s, os) ∧ s.users = [⟨str "root", str "pw", aADMIN⟩] ∧
      outs s (serve [ask 2 "db" "dels"]) = some [.ran 2 (some (str "db")) ⟨str "dels", mADMIN⟩] :=
  ⟨_, _, rfl, by decide +kernel, by decide +kernel⟩

/-! C47 -/

/-- C47: a command marked internal is never carried out for a connection, whatever its user. -/
theorem C47_internal (s s' : St) (e : Ev) (o : List Out) (hs : step s e = some (s', o)) (cid : Int) (svc : Option Bytes) (m : Method)
    (hm : Out.ran cid svc m ∈ o) : m.access &&& mNONET = 0 := by
  obtain ⟨works, r, q, -, -, -, -, -, h2⟩ := ran_of_step hs hm
  have := (allowed_some h2).1
  unfold accessMethod at this
  by_cases h0 : m.access = 0
  · rw [h0]; decide
  · by_cases h1 : m.access &&& mNONET = 0
    · exact h1
    · simp [h0, h1] at this

/-- C47 for readers: a connection logged in as a user with read access only runs commands that neither write nor delete. -/
theorem C47_reader (users : List User) (hu : users ≠ []) (h : List (Ev × List Out)) (s s' : St) (e : Ev) (o : List Out)
    (H : Hist (start users) h s) (hs : step s e = some (s', o)) (cid : Int) (svc : Option Bytes) (m : Method)
    (hm : Out.ran cid svc m ∈ o) (i : Nat) (u : User) (hi : who cid h = some i) (hui : s.users[i]? = some u) (ha : u.access = aREAD) :
    m.access &&& mWRITE = 0 ∧ m.access &&& mDEL = 0 := by
  obtain ⟨works, r, q, -, -, -, -, -, h2⟩ := ran_of_step hs hm
  have := (allowed_some h2).1
  have hl : level { s with queue := q } cid = aREAD := by rw [level_who hu H, hi]; simp [hui, ha]
  rw [hl] at this
  unfold accessMethod at this
  by_cases h0 : m.access = 0
  · rw [h0]; decide
  · by_cases h1 : m.access &&& mNONET = 0
    · by_cases h2 : m.access &&& mDEL = 0
      · by_cases h3 : m.access &&& mWRITE = 0
        · exact ⟨h3, h2⟩
        · simp [h0, h1, h2, h3, aREAD, mADMIN, mWRITE, mREAD] at this h3
          omega
      · simp [h0, h1, h2, aREAD, mADMIN, mWRITE, mREAD] at this
    · simp [h0, h1] at this

/-- C47: with the actual methods, the commands a reader can run on a sisdb data set are exactly these. -/
theorem C47_reader_sisdb (users : List User) (hu : users ≠ []) (h : List (Ev × List Out)) (s s' : St) (o : List Out)
    (works : Bytes → Option (List Method)) (H : Hist (start users) h s) (hs : step s (.work works) = some (s', o)) (cid : Int)
    (svc : Bytes) (m : Method) (hm : Out.ran cid (some svc) m ∈ o) (hsvc : works svc = some sisdbMethods) (i : Nat) (u : User)
    (hi : who cid h = some i) (hui : s.users[i]? = some u) (ha : u.access = aREAD) :
    m.name ∈ ["show", "get", "gets", "keys", "sub", "hsub", "unsub", "psub", "unpsub", "read"].map str := by
  have hw := C47_reader users hu h s s' _ o H hs cid (some svc) m hm i u hi hui ha
  have hn := C47_internal s s' _ o hs cid (some svc) m hm
  obtain ⟨works', r, q, he, -, -, hsv, -, h2⟩ := ran_of_step hs hm
  cases he
  obtain ⟨t, ht, hmt⟩ := (allowed_some h2).2.2.2 svc hsv.symm
  rw [hsvc] at ht
  cases ht
  revert hw hn
  have : ∀ m ∈ sisdbMethods, (m.access &&& mWRITE = 0 ∧ m.access &&& mDEL = 0) → m.access &&& mNONET = 0 →
      m.name ∈ ["show", "get", "gets", "keys", "sub", "hsub", "unsub", "psub", "unpsub", "read"].map str := by decide +kernel
  exact this m hmt

/-- C47 fails for writers: a user with write access deletes keys and many keys at once, and saves and packs. -/
theorem C47_writer_violated :
    outs (start twoUsers) (serve [login 1 "wr" "pw", ask 1 "db" "del", ask 1 "db" "dels", ask 1 "db" "pack"]) =
      some [.ran 1 none ⟨str "auth", 1⟩, .authed 1 1, .ran 1 (some (str "db")) ⟨str "del", mRDWR⟩,
        .ran 1 (some (str "db")) ⟨str "dels", mADMIN⟩, .ran 1 (some (str "db")) ⟨str "pack", mADMIN ||| mNOLOG⟩] := by
  decide +kernel

/-- C47: the check never refuses a writer anything it does not refuse everybody. -/
theorem C47_writer_unrestricted_violated (m : Nat) (h : m &&& mNONET = 0) : accessMethod m aWRITE = true := by
  unfold accessMethod
  by_cases h0 : m = 0
  · simp [h0]
  · simp [h0, h, aWRITE, mADMIN, mWRITE, mREAD]

/-- C47: a writer makes itself an administrator, and a reader of its choice too. -/
theorem C47_escalation_violated :
    ((run (start twoUsers) (serve [login 1 "wr" "pw", adduser 1 "wr" "" "admin", adduser 1 "rd" "" "admin"])).map fun x =>
      x.1.users.map User.access) = some [aADMIN, aADMIN] := by
  decide +kernel

/-! C48 -/

/-- C48 up to case: a login succeeds only with the name and the password of a user, after any history. -/
theorem C48_password_partial (s s' : St) (e : Ev) (o : List Out) (hs : step s e = some (s', o)) (cid : Int) (i : Nat)
    (hm : Out.authed cid i ∈ o) :
    ∃ r q u n p x, s.queue = r :: q ∧ r.cid = cid ∧ r.body = .json (some n) (some p) x ∧ s.users[i]? = some u ∧
      caseEq u.name n = true ∧ caseEq u.password p = true ∧
      (CStr u.name → CStr u.password → CStr n → CStr p → same u.name n ∧ same u.password p) := by
  cases e with
  | recv r => simp [step] at hs; simp [hs.2] at hm
  | close c => simp [step] at hs; simp [hs.2] at hm
  | work works =>
    simp only [step] at hs
    cases hq : s.queue with
    | nil => simp [hq] at hs; simp [hs.2] at hm
    | cons r q =>
      simp only [hq] at hs
      rcases handle_cases hs with ⟨-, rfl, -, -⟩ | ⟨-, rfl⟩ | ⟨m, o', rfl, -, -, hx⟩
      · simp at hm
      · simp at hm
      · simp only [List.mem_cons, reduceCtorEq, false_or] at hm
        rcases hx with ⟨-, rfl⟩ | ⟨-, -, hx⟩ | ⟨-, -, hx⟩
        · exact absurd hm (List.not_mem_nil)
        · rcases auth_cases hx with ⟨-, rfl⟩ | ⟨_, i', u, n, p, x, -, hb, hu, h1, h2, rfl, -⟩
          · exact absurd hm (List.not_mem_nil)
          · simp at hm
            obtain ⟨rfl, rfl⟩ := hm
            exact ⟨r, q, u, n, p, x, rfl, rfl, hb, hu, h1, h2, fun c1 c2 c3 c4 => ⟨(caseEq_same c1 c3).1 h1, (caseEq_same c2 c4).1 h2⟩⟩
        · rw [(setuser_cases hx).1] at hm
          exact absurd hm (List.not_mem_nil)

/-- C48, the other way: the right name and password always log in, on a connection logged in or not. -/
theorem C48_right_password (users : List User) (hu : users ≠ []) (h : List (Ev × List Out)) (s : St) (H : Hist (start users) h s)
    (works : Bytes → Option (List Method)) (cid : Int) (n p : Bytes) (x : Option Bytes) (q : List Req) (i : Nat) (u : User)
    (hq : s.queue = ⟨cid, none, some (str "auth"), .json (some n) (some p) x⟩ :: q) (hi : s.users[i]? = some u)
    (hn : caseEq u.name n = true) (hfirst : ∀ j v, j < i → s.users[j]? = some v → caseEq v.name n = false) (hp : u.password = p) :
    ∃ s', step s (.work works) = some (s', [.ran cid none ⟨str "auth", mREAD⟩, .authed cid i]) ∧
      s'.users = s.users ∧ s'.queue = q := by
  obtain ⟨a, ha, -⟩ := access_who hu H
  have hf : findMethod serverMethods (some (str "auth")) = some ⟨str "auth", mREAD⟩ := by decide +kernel
  have hal : ∀ lv, accessMethod mREAD lv = true := by
    intro lv
    simp [accessMethod, mREAD, mNONET, mDEL, mWRITE]
  have hia : isAuth (some (str "auth")) = true := by decide +kernel
  obtain ⟨hlt, hget⟩ := List.getElem?_eq_some_iff.1 hi
  have hfu : findUser s.users (some n) = some i := by
    simp only [findUser, Option.bind_some, List.findIdx?_eq_some_iff_getElem]
    refine ⟨hlt, by rw [hget]; exact hn, fun j hj => ?_⟩
    simp [hfirst j _ hj (List.getElem?_eq_getElem (Nat.lt_trans hj hlt))]
  have hself : caseEq u.password p = true := (caseEq_cut _ _).2 (by rw [hp])
  refine ⟨{ s with queue := q, access := some fun c => if c = cid then some i else a c }, ?_, rfl, rfl⟩
  simp [step, hq, handle, hia, allowed, hf, hal, Option.filter, runServer, auth, ha, hfu, hi, hself]

example : outs (start twoUsers) (serve [login 5 "rd" "Secret", login 5 "wr" "wrong", login 5 "wr" "pw"]) =
    some [.ran 5 none ⟨str "auth", 1⟩, .authed 5 0, .ran 5 none ⟨str "auth", 1⟩, .ran 5 none ⟨str "auth", 1⟩, .authed 5 1] := by
  decide +kernel

/-- C48 fails: the case of the password does not matter. -/
theorem C48_case_violated :
    outs (start twoUsers) (serve [login 1 "rd" "sECRET"]) = some [.ran 1 none ⟨str "auth", 1⟩, .authed 1 0] := by
  decide +kernel

/-! C49 -/

private theorem step_queue {s e s' o} (h : step s e = some (s', o)) {r : Req} (hr : r ∈ s'.queue) : r ∈ s.queue ∨ e = .recv r := by
  cases e with
  | recv r' =>
    simp [step] at h
    obtain ⟨rfl, -⟩ := h
    simp at hr
    rcases hr with hr | rfl
    · exact Or.inl hr
    · exact Or.inr rfl
  | close c => simp [step] at h; obtain ⟨rfl, -⟩ := h; exact Or.inl hr
  | work works =>
    simp only [step] at h
    cases hq : s.queue with
    | nil => simp [hq] at h; rw [← h.1, hq] at hr; exact Or.inl hr
    | cons r0 q =>
      simp only [hq] at h
      have : s'.queue = q := by
        rcases handle_cases h with ⟨rfl, -⟩ | ⟨rfl, -⟩ | ⟨m, o', -, -, -, hx⟩
        · rfl
        · rfl
        · rcases hx with ⟨rfl, -⟩ | ⟨-, -, hx⟩ | ⟨-, -, hx⟩
          · rfl
          · rcases auth_cases hx with ⟨rfl, -⟩ | ⟨_, _, _, _, _, _, -, -, -, -, -, -, rfl⟩ <;> rfl
          · exact (setuser_cases hx).2.2.1
      rw [this] at hr
      exact Or.inl (List.mem_cons_of_mem _ hr)

/-- C49 for the authority, if no request of the connection is waiting when it closes: afterwards nothing but auth is carried out on
this number until a new login was received on it, and succeeded. -/
theorem C49_authority_partial (users : List User) (hu : users ≠ []) (h0 : List (Ev × List Out)) (s0 s1 : St) (o0 : List Out) (cid : Int)
    (H0 : Hist (start users) h0 s0) (hq : ∀ r ∈ s0.queue, r.cid ≠ cid) (hc : step s0 (.close cid) = some (s1, o0))
    (h : List (Ev × List Out)) (s s' : St) (e : Ev) (o : List Out) (H : Hist s1 h s) (hs : step s e = some (s', o))
    (svc : Option Bytes) (m : Method) (hm : Out.ran cid svc m ∈ o) (hna : ¬ caseEq m.name (str "auth") = true) :
    ∃ r i c, r.cid = cid ∧ r.service = none ∧ r.cmd = some c ∧ caseEq (str "auth") c = true ∧ Ev.recv r ∈ h.map Prod.fst ∧
      Out.authed cid i ∈ h.flatMap Prod.snd := by
  suffices hsuff : ∃ r i, r.cid = cid ∧ r.service = none ∧ isAuth r.cmd = true ∧ Ev.recv r ∈ h.map Prod.fst ∧
      Out.authed cid i ∈ h.flatMap Prod.snd by
    obtain ⟨r, i, h1, h2, h3, h4, h5⟩ := hsuff
    cases hcm : r.cmd with
    | none => rw [hcm] at h3; exact nomatch h3
    | some c => exact ⟨r, i, c, h1, h2, hcm, by rw [hcm] at h3; exact h3, h4, h5⟩
  simp [step] at hc
  obtain ⟨a0, ha0, -⟩ := access_who hu H0
  -- what holds from the close on
  have inv : (∃ a, s.access = some a ∧ (a cid ≠ none → ∃ r i, r.cid = cid ∧ r.service = none ∧ isAuth r.cmd = true ∧
      Ev.recv r ∈ h.map Prod.fst ∧ Out.authed cid i ∈ h.flatMap Prod.snd)) ∧
      ∀ r ∈ s.queue, r.cid = cid → Ev.recv r ∈ h.map Prod.fst := by
    clear hm hs
    induction H with
    | nil =>
      obtain ⟨rfl, -⟩ := hc
      refine ⟨⟨_, by simp [ha0]; rfl, fun hn => absurd (by simp) hn⟩, fun r hr hrc => absurd hrc (hq r hr)⟩
    | @snoc h s e s' o _ hst ih =>
      obtain ⟨⟨a, ha, hau⟩, hqu⟩ := ih
      refine ⟨?_, ?_⟩
      · have keep : (∃ r i, r.cid = cid ∧ r.service = none ∧ isAuth r.cmd = true ∧ Ev.recv r ∈ h.map Prod.fst ∧ Out.authed cid i ∈ h.flatMap Prod.snd) →
            ∃ r i, r.cid = cid ∧ r.service = none ∧ isAuth r.cmd = true ∧ Ev.recv r ∈ (h ++ [(e, o)]).map Prod.fst ∧
              Out.authed cid i ∈ (h ++ [(e, o)]).flatMap Prod.snd := by
          rintro ⟨r, i, g1, g2, g3, g4, g5⟩
          refine ⟨r, i, g1, g2, g3, ?_, ?_⟩
          · rw [List.map_append]; exact List.mem_append_left _ g4
          · rw [List.flatMap_append]; exact List.mem_append_left _ g5
        cases e with
        | recv r =>
          simp [step] at hst
          obtain ⟨rfl, rfl⟩ := hst
          exact ⟨a, ha, fun hn => keep (hau hn)⟩
        | close c =>
          simp [step] at hst
          obtain ⟨rfl, rfl⟩ := hst
          refine ⟨_, by simp [ha]; rfl, fun hn => keep (hau ?_)⟩
          intro h0
          apply hn
          simp [h0]
        | work works =>
          simp only [step] at hst
          cases hqq : s.queue with
          | nil =>
            simp [hqq] at hst
            obtain ⟨rfl, rfl⟩ := hst
            exact ⟨a, ha, fun hn => keep (hau hn)⟩
          | cons r q =>
            simp only [hqq] at hst
            rcases handle_cases hst with ⟨rfl, -, -, -⟩ | ⟨rfl, -⟩ | ⟨m, o', rfl, -, hal, hx⟩
            · exact ⟨a, ha, fun hn => keep (hau hn)⟩
            · exact ⟨a, ha, fun hn => keep (hau hn)⟩
            · rcases hx with ⟨rfl, -⟩ | ⟨hsv, hn, hx⟩ | ⟨-, -, hx⟩
              · exact ⟨a, ha, fun hn => keep (hau hn)⟩
              · rcases auth_cases hx with ⟨rfl, -⟩ | ⟨a', i, u, n, p, x, ha', -, -, -, -, rfl, rfl⟩
                · exact ⟨a, ha, fun hn => keep (hau hn)⟩
                · simp only at ha'
                  rw [ha] at ha'
                  cases ha'
                  refine ⟨_, rfl, fun hcid => ?_⟩
                  by_cases e : cid = r.cid
                  · refine ⟨r, i, e.symm, hsv, ?_, ?_, ?_⟩
                    · obtain ⟨-, ⟨c, hcm, hcn⟩, -, -⟩ := allowed_some hal
                      rw [hcm]
                      rw [hn] at hcn
                      exact hcn
                    · rw [List.map_append]
                      exact List.mem_append_left _ (hqu r (by rw [hqq]; exact List.mem_cons_self ..) e.symm)
                    · rw [List.flatMap_append]
                      apply List.mem_append_right
                      simp [e]
                  · simp only [e, if_false] at hcid
                    exact keep (hau hcid)
              · obtain ⟨-, h1, -, -⟩ := setuser_cases hx
                exact ⟨a, by rw [h1]; exact ha, fun hn => keep (hau hn)⟩
      · intro r hr hrc
        rw [List.map_append]
        rcases step_queue hst hr with hr | rfl
        · exact List.mem_append_left _ (hqu r hr hrc)
        · exact List.mem_append_right _ (by simp)
  obtain ⟨⟨a, ha, hau⟩, -⟩ := inv
  apply hau
  intro hn
  obtain ⟨works, r, q, rfl, -, rfl, rfl, h1, h2⟩ := ran_of_step hs hm
  have hl : level { s with queue := q } r.cid = -1 := by simp [level, ha, hn]
  have := h1 (by rw [hl]; decide)
  obtain ⟨-, ⟨c, hcm, hcn⟩, -, -⟩ := allowed_some h2
  rw [hcm] at this
  exact hna (caseEq_trans' hcn (caseEq_comm' this))

example : outs (start twoUsers) (serve [login 1 "rd" "Secret", ask 1 "db" "get"] ++ [.close 1] ++ serve [ask 1 "db" "get"]) =
    some [.ran 1 none ⟨str "auth", 1⟩, .authed 1 0, .ran 1 (some (str "db")) ⟨str "get", 1⟩, .denied 1] := by
  decide +kernel

/-- C49 fails if a login is still waiting when the connection closes: the next owner of the number is logged in without asking. -/
theorem C49_queued_login_violated :
    outs (start twoUsers) ([.recv (login 1 "wr" "pw"), .close 1, .work oneDb] ++ serve [ask 1 "db" "dels"]) =
      some [.ran 1 none ⟨str "auth", 1⟩, .authed 1 1, .ran 1 (some (str "db")) ⟨str "dels", mADMIN⟩] := by
  decide +kernel

/-! C66 -/

/-- C66: the requests that crash the server, exactly. -/
theorem C66_crash_exactly_partial (s : St) (e : Ev) :
    step s e = none ↔ ∃ works r q m, e = .work works ∧ s.queue = r :: q ∧ r.service = none ∧
      (level { s with queue := q } r.cid < 0 → isAuth r.cmd = true) ∧ allowed works (level { s with queue := q } r.cid) r = some m ∧
      ((m.name = str "auth" ∧ s.access ≠ none ∧
          (r.body = .absent ∨ ∃ n p x, r.body = .json n p x ∧ findUser s.users n = none)) ∨
        (m.name = str "setuser" ∧ r.body = .absent)) := by
  cases e with
  | recv r => simp [step]
  | close c => simp [step]
  | work works =>
    simp only [step]
    cases hq : s.queue with
    | nil => simp
    | cons r q =>
      simp only [handle]
      by_cases hc : level { s with queue := q } r.cid < 0 ∧ isAuth r.cmd = false
      · rw [if_pos hc]
        simp only [reduceCtorEq, false_iff]
        rintro ⟨works', r', q', m, -, h2, -, h3, -⟩
        cases h2
        have := h3 hc.1
        rw [hc.2] at this
        exact nomatch this
      · rw [if_neg hc]
        have hlv : level { s with queue := q } r.cid < 0 → isAuth r.cmd = true := by
          intro hl
          cases hx : isAuth r.cmd with
          | true => rfl
          | false => exact absurd ⟨hl, hx⟩ hc
        cases hm : allowed works (level { s with queue := q } r.cid) r with
        | none =>
          simp only [reduceCtorEq, false_iff]
          rintro ⟨works', r', q', m, h1, h2, -, -, h4, -⟩
          cases h1; cases h2
          rw [hm] at h4
          exact nomatch h4
        | some m =>
          cases hs : r.service with
          | some sv =>
            simp only [reduceCtorEq, false_iff]
            rintro ⟨works', r', q', m, h1, h2, h3, -⟩
            cases h1; cases h2
            rw [hs] at h3
            exact nomatch h3
          | none =>
            have hiff : (∃ works' r' q' m', Ev.work works = .work works' ∧ r :: q = r' :: q' ∧ r'.service = none ∧
                (level { s with queue := q' } r'.cid < 0 → isAuth r'.cmd = true) ∧ allowed works' (level { s with queue := q' } r'.cid) r' = some m' ∧
                ((m'.name = str "auth" ∧ s.access ≠ none ∧
                  (r'.body = .absent ∨ ∃ n p x, r'.body = .json n p x ∧ findUser s.users n = none)) ∨
                (m'.name = str "setuser" ∧ r'.body = .absent))) ↔
                ((m.name = str "auth" ∧ s.access ≠ none ∧
                  (r.body = .absent ∨ ∃ n p x, r.body = .json n p x ∧ findUser s.users n = none)) ∨
                (m.name = str "setuser" ∧ r.body = .absent)) := by
              constructor
              · rintro ⟨works', r', q', m', h1, h2, -, -, h5, h6⟩
                cases h1; cases h2
                rw [hm] at h5
                cases h5
                exact h6
              · intro h6
                exact ⟨works, r, q, m, rfl, rfl, hs, hlv, hm, h6⟩
            rw [hiff]
            simp only [Option.map_eq_none_iff, runServer]
            by_cases hna : m.name = str "auth"
            · have hne : str "auth" ≠ str "setuser" := by decide +kernel
              simp only [hna, if_true, hne, false_and, or_false, true_and, auth]
              cases ha : s.access with
              | none => simp
              | some a =>
                cases hb : r.body with
                | absent => simp
                | bad => simp
                | json n p x =>
                  cases hf : findUser s.users n with
                  | none => simp [hf]
                  | some i =>
                    simp only [reduceCtorEq, Body.json.injEq, false_or, ne_eq, not_false_eq_true, true_and]
                    have hR : ¬ ∃ n' p' x', (n = n' ∧ p = p' ∧ x = x') ∧ findUser s.users n' = none := by
                      rintro ⟨n', _, _, ⟨rfl, -, -⟩, h⟩
                      rw [hf] at h
                      exact nomatch h
                    simp only [hR, iff_false]
                    cases hu : s.users[i]? with
                    | none => simp [hf, hu]
                    | some u =>
                      cases p with
                      | none => simp [hf, hu]
                      | some p => by_cases hpp : caseEq u.password p = true <;> simp [hf, hu, hpp]
            · simp only [hna, if_false, false_and, false_or]
              by_cases hns : m.name = str "setuser"
              · simp only [hns, if_true, true_and, setuser]
                cases hb : r.body with
                | absent => simp
                | bad => simp
                | json n p x =>
                  simp only [reduceCtorEq, iff_false]
                  split <;> simp
              · simp [hns]

/-- C66 fails: any client crashes a server with users by logging in with an unknown name, or with no information at all. -/
theorem C66_unknown_user_violated (users : List User) (hu : users ≠ []) (h : List (Ev × List Out)) (s : St)
    (H : Hist (start users) h s) (cid : Int) (n p : Bytes) (hn : findUser s.users (some n) = none) (hq : s.queue = []) :
    run s [.recv ⟨cid, none, some (str "auth"), .json (some n) (some p) none⟩, .work fun _ => none] = none := by
  obtain ⟨a, ha, -⟩ := access_who hu H
  have hf : findMethod serverMethods (some (str "auth")) = some ⟨str "auth", mREAD⟩ := by decide +kernel
  have hal : ∀ lv, accessMethod mREAD lv = true := by
    intro lv
    simp [accessMethod, mREAD, mNONET, mDEL, mWRITE]
  have hia : isAuth (some (str "auth")) = true := by decide +kernel
  simp [run, step, hq, handle, hia, allowed, hf, hal, Option.filter, runServer, auth, ha, hn]

example : (run (start twoUsers) (serve [login 1 "nobody" "x"])).isNone = true := by decide +kernel

/-! C67 -/

/-- C67 at the end of a save, and with no save under way: a restarted server has the same users, with the same passwords and access,
and nobody is logged in. -/
theorem C67_saved_users_partial (users : List User) (hu : users ≠ [])
    (ha : ∀ u ∈ users, u.access = aREAD ∨ u.access = aWRITE ∨ u.access = aWORKER ∨ u.access = aADMIN) (f : File)
    (hf : (saveSteps users).getLast? = some f) :
    (restart f).users = users ∧ ∀ cid, level (restart f) cid = -1 := by
  simp [saveSteps] at hf
  subst hf
  have : (users.map fun u => (⟨u.name, u.password, accessName u.access⟩ : Entry)).map
      (fun e => (⟨e.name, e.password, accessOf (some e.access)⟩ : User)) = users := by
    rw [List.map_map]
    conv => rhs; rw [← List.map_id users]
    apply List.map_congr_left
    intro u hmem
    obtain ⟨n, p, a⟩ := u
    rcases ha _ hmem with h | h | h | h <;> simp only at h <;> subst h <;>
      simp only [Function.comp, id] <;> congr 1 <;> decide +kernel
  simp only [restart, this]
  refine ⟨rfl, fun cid => ?_⟩
  have : users.length > 0 := List.length_pos_iff.2 hu
  simp [level, start, this]

/-- The access names of any user changed or added through the server are among those of the file. -/
theorem C67_levels (s : Option Bytes) : accessOf s = aREAD ∨ accessOf s = aWRITE ∨ accessOf s = aWORKER ∨ accessOf s = aADMIN := by
  unfold accessOf
  split
  · exact Or.inl rfl
  · split
    · exact Or.inr (Or.inl rfl)
    · split
      · exact Or.inr (Or.inr (Or.inl rfl))
      · split
        · exact Or.inr (Or.inr (Or.inr rfl))
        · exact Or.inl rfl

example : (restart (.whole [⟨str "rd", str "Secret", str "read"⟩, ⟨str "wr", str "pw", str "write"⟩])).users = twoUsers := by
  decide +kernel

/-- C67 fails: after a crash during a save of any users, no user is known and every connection has every right. -/
theorem C67_crash_violated (users : List User) :
    ∃ f ∈ saveSteps users, (restart f).users = [] ∧ ∀ cid, level (restart f) cid = mADMIN :=
  ⟨.missing, List.mem_cons_self .., rfl, fun _ => rfl⟩

end Sis.Access
