import Verif.Conf.ReadLemmas
import Verif.Conf.TotalLemmas
import Verif.Conf.ScriptLemmas
/-
C106: a configuration is read as it is written.
C107: any configuration is read to an end, inside its text.
C108: scripts are run object by object, whatever the pieces in which the file is read.
-/
namespace Sis.Conf
open Sis Num
open Sis.Json (Node Ty)

/-- The bytes of a text. -/
def str (s : String) : Bytes := s.toUTF8.toList

/-- An outcome is the only one: a larger bound of the recursion changes nothing. -/
theorem opens_unique {v : Env} {fn : Bytes} {r r' : Option (List Node)} (h : Opens v fn r) (h' : Opens v fn r') : r = r' := by
  obtain ⟨j, hj⟩ := h
  obtain ⟨k, hk⟩ := h'
  have h1 := mono_le (f := fun n => openFile v n fn) (open_mono v fn) hj (Nat.le_max_left j k)
  have h2 := mono_le (f := fun n => openFile v n fn) (open_mono v fn) hk (Nat.le_max_right j k)
  exact Option.some.inj (h1.symm.trans h2)

theorem loads_unique {v : Env} {t : Bytes} {r r' : Option Node} (h : Loads v t r) (h' : Loads v t r') : r = r' := by
  obtain ⟨j, hj⟩ := h
  obtain ⟨k, hk⟩ := h'
  have h1 := mono_le (f := fun n => load v n t) (load_mono v t) hj (Nat.le_max_left j k)
  have h2 := mono_le (f := fun n => load v n t) (load_mono v t) hk (Nat.le_max_right j k)
  exact Option.some.inj (h1.symm.trans h2)

/-! ### C106 -/

/-- A file of named values, however it is laid out and commented, with values nested to any depth and with included files, is read as
the document it stands for.  Partial: see `Mems.Ok` for what may not be written, and the theorems below. -/
theorem C106_open_partial (v : Env) (fn : Bytes) (ms : Mems) (h : ms.Ok v true) (hn : ms ≠ .nil) (hf : v.files fn = some ms.file) :
    Opens v fn (some ms.nodes) := by
  refine ⟨ms.size, ?_⟩
  unfold openFile fileText
  rw [hf]
  simp only [Option.bind_some, if_neg (file_ne h hn)]
  rw [top_read v ms h ms.size [] (Nat.le_refl _)]
  simp

/-- The same for an object given as text. -/
theorem C106_load_partial (v : Env) (b g s : Bytes) (ms : Mems) (hb : Gap b) (h : (Val.obj g ms).Ok v) (hs : Gap s) :
    Loads v (b ++ (Val.obj g ms).text ++ s) (some ((Val.obj g ms).node none)) := by
  refine ⟨_, load_read v hb h ?_ _ (Nat.le_refl _)⟩
  have := gap_stop hs stop_nil
  rwa [List.append_nil] at this

/-- A server file, with an included one. -/
def main₀ : Mems :=
  .cons (str "# server\n") (str "port") (str " ") (str " ") (.num (str "7329")) (str "\n") <|
  .cons [] (str "ratio") [] [] (.num (str "-0.5")) (str " # half\r\n") <|
  .cons [] (str "path") [] (str " ") (.quoted (str "/data,{x}")) (str "\n") <|
  .cons [] (str "list") [] [] (.arr (str " ") (.cons [] (.word (str "SH")) (str " ") (.cons (str "\n") (.obj [] .nil) [] .nil))) (str "\n") <|
  .cons [] (str "log") (str " ") (str "\n") (.obj [] (.inc (str " ") (str " ") (str "log.conf") (str " ")
      (.cons [] (str "level") [] [] (.num (str "5")) (str "\n") .nil) (.cons [] (str "screen") [] [] (.word (str "yes")) [] .nil))) [] .nil

/-- How it is written. -/
def file₀ : Bytes :=
  str "# server\nport : 7329\nratio:-0.5 # half\r\npath: \"/data,{x}\"\nlist:[ SH ,\n{}]\nlog :\n{ include log.conf ,screen:yes}"

/-- The two files. -/
def env₀ : Env := ⟨fun fn => if fn = str "etc/sisdb.conf" then some file₀ else if fn = str "etc/log.conf" then some (str "level:5\n") else none, str "etc/"⟩

theorem main₀_file : main₀.file = file₀ := by decide +kernel

theorem gap_blanks {g : Bytes} (h : ∀ c ∈ g, c ≤ 0x20) : Gap g := by
  induction g with
  | nil => exact .nil
  | cons c g ih => exact .blank (h c (by simp)) (ih fun x hx => h x (by simp [hx]))

theorem key_ok {t : Bytes} (h : (t.head?.any (fun c => c != 35 && c != 125) && t.all (fun c => decide (0x20 < c) && c != 58) &&
    ((t.take 7).map lower != [105, 110, 99, 108, 117, 100, 101])) = true) : KeyOk t := by
  cases t with
  | nil => simp at h
  | cons c r =>
    simp only [Bool.and_eq_true, List.head?_cons, Option.any_some, List.all_eq_true, bne_iff_ne, decide_eq_true_eq] at h
    exact ⟨⟨c, r, rfl, h.1.1⟩, h.1.2, h.2⟩

theorem num_ok {t : Bytes} (h : (t.head?.any (fun c => c == 45 || isDigit c) && t.all (fun c => c == 45 || c == 46 || isDigit c)) = true) : NumOk t := by
  cases t with
  | nil => simp at h
  | cons c r =>
    simp only [Bool.and_eq_true, List.head?_cons, Option.any_some, List.all_eq_true, Bool.or_eq_true, beq_iff_eq] at h
    refine ⟨⟨c, r, rfl, h.1⟩, fun x hx => ?_⟩
    rcases h.2 x hx with (h | h) | h
    · exact Or.inl h
    · exact Or.inr (Or.inl h)
    · exact Or.inr (Or.inr h)

theorem word_ok {t : Bytes} (h : (t.head?.any (fun c => c != 45 && !isDigit c && c != 91 && c != 123 && c != 34) &&
    t.all (fun c => decide (0x20 < c) && c != 35 && c != 44 && c != 93 && c != 125)) = true) : WordOk t := by
  cases t with
  | nil => simp at h
  | cons c r =>
    simp only [Bool.and_eq_true, List.head?_cons, Option.any_some, List.all_eq_true, bne_iff_ne, decide_eq_true_eq, Bool.not_eq_true'] at h
    obtain ⟨⟨⟨⟨⟨h1, h2⟩, h3⟩, h4⟩, h5⟩, h6⟩ := h
    refine ⟨⟨c, r, rfl, h1, h2, h3, h4, h5⟩, fun x hx => ?_⟩
    obtain ⟨⟨⟨⟨g1, g2⟩, g3⟩, g4⟩, g5⟩ := h6 x hx
    exact ⟨⟨g1, g2⟩, g3, g4, g5⟩

theorem main₀_ok : main₀.Ok env₀ true := by
  unfold main₀
  simp only [Mems.Ok, Vals.Ok, Val.Ok]
  have g : ∀ s : String, (∀ c ∈ str s, c ≤ 0x20) → Gap (str s) := fun s h => gap_blanks h
  refine ⟨?_, key_ok (by decide +kernel), by decide +kernel, g _ (by decide +kernel), num_ok (by decide +kernel),
    g _ (by decide +kernel), fun _ => Or.inr (by decide +kernel), .nil, key_ok (by decide +kernel), by decide +kernel, .nil,
    num_ok (by decide +kernel), ?_, fun _ => Or.inr (by decide +kernel), .nil, key_ok (by decide +kernel), by decide +kernel,
    g _ (by decide +kernel), ?_, g _ (by decide +kernel), fun _ => Or.inr (by decide +kernel), .nil, key_ok (by decide +kernel), by decide +kernel, .nil,
    ⟨g _ (by decide +kernel), .nil, ?_, ?_, g _ (by decide +kernel), by decide, g _ (by decide +kernel), ⟨.nil, trivial⟩, ?_, .nil, by decide, trivial⟩,
    g _ (by decide +kernel), fun _ => Or.inr (by decide +kernel), .nil, key_ok (by decide +kernel), by decide +kernel, g _ (by decide +kernel),
    ⟨.nil, g _ (by decide +kernel), g _ (by decide +kernel), ?_, g _ (by decide +kernel), fun h => absurd h (by decide), ?_, by decide +kernel, by decide +kernel, by simp, ?_, ?_⟩,
    .nil, fun _ => Or.inl trivial, trivial⟩
  · rw [show str "# server\n" = 35 :: (str " server" ++ 10 :: []) by decide +kernel]
    exact .note (by decide +kernel) (Or.inl rfl) .nil
  · rw [show str " # half\r\n" = 32 :: 35 :: (str " half" ++ 13 :: [10]) by decide +kernel]
    exact .blank (by decide) (.note (by decide +kernel) (Or.inr rfl) (.blank (by decide) .nil))
  · unfold QuotedOk Solid; decide +kernel
  · exact word_ok (by decide +kernel)
  · unfold NotInclude; decide +kernel
  · unfold NotInclude; decide +kernel
  · unfold FileOk Solid; decide +kernel
  · exact ⟨.nil, key_ok (by decide +kernel), by decide +kernel, .nil, word_ok (by decide +kernel), .nil, fun h => absurd h (by decide), trivial⟩
  · simp [Mems.Flat]
  · exact ⟨.nil, key_ok (by decide +kernel), by decide +kernel, .nil, num_ok (by decide +kernel),
      g _ (by decide +kernel), fun _ => Or.inl trivial, trivial⟩

/-- The sample meets the hypotheses: it is read with the included member in its place. -/
example : Opens env₀ (str "etc/sisdb.conf") (some [
    .mk .int (some (str "port")) (some (str "7329")) [], .mk .double (some (str "ratio")) (some (str "-0.5")) [],
    .mk .string (some (str "path")) (some (str "/data,{x}")) [],
    .mk .array (some (str "list")) none [.mk .string (some (str "0")) (some (str "SH")) [], .mk .object (some (str "1")) none []],
    .mk .object (some (str "log")) none [.mk .int (some (str "level")) (some (str "5")) [], .mk .string (some (str "screen")) (some (str "yes")) []]]) := by
  have h := C106_open_partial env₀ (str "etc/sisdb.conf") main₀ main₀_ok (by unfold main₀; simp) (by
    rw [main₀_file]
    unfold env₀
    exact if_pos rfl)
  have e : main₀.nodes = [
    .mk .int (some (str "port")) (some (str "7329")) [], .mk .double (some (str "ratio")) (some (str "-0.5")) [],
    .mk .string (some (str "path")) (some (str "/data,{x}")) [],
    .mk .array (some (str "list")) none [.mk .string (some (str "0")) (some (str "SH")) [], .mk .object (some (str "1")) none []],
    .mk .object (some (str "log")) none [.mk .int (some (str "level")) (some (str "5")) [], .mk .string (some (str "screen")) (some (str "yes")) []]] := by
    have h1 : (if Pointed (str "7329") then Ty.double else Ty.int) = .int := by decide +kernel
    have h2 : (if Pointed (str "-0.5") then Ty.double else Ty.int) = .double := by decide +kernel
    have h3 : (if Pointed (str "5") then Ty.double else Ty.int) = .int := by decide +kernel
    have h4 : Rec.dec 0 = str "0" := by rw [Rec.dec]; decide +kernel
    have h5 : Rec.dec 1 = str "1" := by rw [Rec.dec]; decide +kernel
    simp only [main₀, Mems.nodes, Vals.nodes, Val.node, h1, h2, h3, h4, h5, List.cons_append, List.nil_append]
  rw [← e]; exact h

/-- No other files. -/
def alone : Env := ⟨fun _ => none, []⟩

/-- A text in quotes with a blank in it ends at the blank, and the rest of it is taken for the name of the next member: of the two
members `a` and `d` none is left. -/
theorem C106_quoted_violated : Loads alone (str "{a:\"b c\",d:1}") (some (.mk .object none none [.mk .int (some (str "c\",d")) (some (str "1")) []])) :=
  ⟨10, by with_unfolding_all rfl⟩

/-- A word that begins with a digit ends behind the digits: the member is lost, and the next one has another name. -/
theorem C106_digit_violated : Loads alone (str "{a:1x,b:2}") (some (.mk .object none none [.mk .int (some (str "x,b")) (some (str "2")) []])) :=
  ⟨10, by with_unfolding_all rfl⟩

/-- Names in quotes, as in JSON, keep them. -/
theorem C106_name_violated : Loads alone (str "{\"a\":1}") (some (.mk .object none none [.mk .int (some (str "\"a\"")) (some (str "1")) []])) :=
  ⟨10, by with_unfolding_all rfl⟩

/-- A directory with these files. -/
def files (l : List (String × String)) : Env := ⟨fun fn => (l.find? fun p => str p.1 == fn).map fun p => str p.2, []⟩

/-- A file with an empty text in quotes is refused. -/
theorem C106_empty_violated : Opens (files [("a.conf", "a:\"\"\n")]) (str "a.conf") none := ⟨10, by with_unfolding_all rfl⟩

/-- If an included file includes another one, and something stands behind that, only the first member of the other one is left. -/
theorem C106_nested_violated :
    Opens (files [("a.conf", "include b.conf\n"), ("b.conf", "include c.conf\nx:3\n"), ("c.conf", "y:1\nz:2\n")]) (str "a.conf")
      (some [.mk .int (some (str "y")) (some (str "1")) [], .mk .int (some (str "x")) (some (str "3")) []]) := ⟨10, by with_unfolding_all rfl⟩

/-- A file that has been cut off is accepted: of `a:{b:1}` with what follows `a` is left, with a member that has no name. -/
theorem C106_cut_violated : Opens (files [("a.conf", "a:{")]) (str "a.conf") (some [.mk .object (some (str "a")) none [Json.newNode]]) := ⟨10, by with_unfolding_all rfl⟩

/-! ### C107 -/

/-- Whatever a file contains, if the files it includes come to an end, reading it comes to an end, inside the texts. -/
theorem C107_open_partial (v : Env) (fn : Bytes) (hp : v.files (v.path.take 1023) = none) (h : ∀ b, v.files fn = some b → Ends v b) :
    ∃ r, Opens v fn r := by
  cases hb : fileText v fn with
  | none => exact ⟨none, 0, by unfold openFile; rw [hb]⟩
  | some b =>
    have hraw : v.files fn = some b := by
      unfold fileText at hb
      cases hx : v.files fn with
      | none => rw [hx] at hb; simp at hb
      | some c =>
        rw [hx] at hb
        simp only [Option.bind_some] at hb
        split at hb
        · exact absurd hb (by simp)
        · exact hb
    obtain ⟨K, hK⟩ := known_of_ends v hp (h b hraw)
    have hl := (skip_suffix b).length_le
    obtain ⟨o, ho⟩ := top_total v K (2 * b.length + K + 2) [] (skip b) 0 (known_suffix hK (skip_suffix b)) (by omega)
    exact ⟨_, 2 * b.length + K + 2, by unfold openFile; rw [hb]; simp only [ho, Option.map_some]; rfl⟩

/-- The same for a text that ends with a control character, such as the end of a line. -/
theorem C107_load_partial (v : Env) (t : Bytes) (hp : v.files (v.path.take 1023) = none) (h : Ends v t) (hc : ∀ c, t.getLast? = some c → c < 0x20) :
    ∃ r, Loads v t r := by
  obtain ⟨K, hK⟩ := known_of_ends v hp h
  by_cases h0 : at0 (skip t) = 123
  · have hl := (skip_suffix t).length_le
    obtain ⟨o, ho, -⟩ := (total v K (2 * t.length + K + 1)).1 false Json.newNode (skip t) 0 (known_suffix hK (skip_suffix t))
      (ended_suffix (Or.inr hc) (skip_suffix t)) (by omega)
    exact ⟨some o.node, _, by unfold load; rw [if_pos h0, ho]; rfl⟩
  · exact ⟨none, 0, by unfold load; rw [if_neg h0]⟩

/-- A directory in which no file is included from another: every text ends. -/
theorem ends_alone (t : Bytes) : Ends alone t := .mk fun _ _ _ h => absurd h (by unfold alone; simp)

/-- The hypotheses are met by a text that is not a configuration at all, and by a file with an include. -/
example : ∃ r, Loads alone (str "{:{[,\"}#{x\n") r := C107_load_partial _ _ rfl (ends_alone _) (by decide +kernel)

theorem ends_plain {v : Env} {b : Bytes} (h : ∀ f, ¬ Includes b f) : Ends v b := .mk fun f _ hf => absurd hf (h f)

example : ∃ r, Opens (files [("a.conf", "a:{include b.conf,]"), ("b.conf", "x:[")]) (str "a.conf") r := by
  have short : ∀ f, ¬ Includes (str "x:[") f := by
    rintro f ⟨pre, kw, g, rest, he, hk, -⟩
    have h1 := congrArg List.length he
    have h2 := congrArg List.length hk
    have h3 : (str "x:[").length = 3 := by decide +kernel
    simp only [List.length_append, List.length_map, List.length_cons, List.length_nil] at h1 h2
    omega
  refine C107_open_partial _ _ (by decide +kernel) ?_
  intro b hb
  have hb' : b = str "a:{include b.conf,]" := by
    have : some b = some (str "a:{include b.conf,]") := hb.symm.trans (by decide +kernel)
    exact Option.some.inj this
  subst hb'
  refine .mk fun f c hf hc => ?_
  by_cases h2 : (files [("a.conf", "a:{include b.conf,]"), ("b.conf", "x:[")]).files (([] ++ f).take 1023) = some (str "x:[")
  · have : c = str "x:[" := Option.some.inj (hc.symm.trans h2)
    subst this
    exact ends_plain short
  · exfalso
    -- the only other file is too long a name to stand behind the word
    unfold files at hc h2
    simp only [List.find?_cons] at hc h2
    by_cases ha : (str "a.conf" == ([] ++ f).take 1023) = true
    · obtain ⟨pre, kw, g, rest, he, hk, hg, -, -⟩ := hf
      have hfa : (([] : Bytes) ++ f).take 1023 = str "a.conf" := (beq_iff_eq.mp ha).symm
      have hfl : f = str "a.conf" := by
        rw [List.nil_append] at hfa
        have hl : (str "a.conf").length = 6 := by decide +kernel
        have h3 := congrArg List.length hfa
        rw [List.length_take, hl] at h3
        rwa [List.take_of_length_le (by omega)] at hfa
      subst hfl
      have h7 := congrArg List.length hk
      simp only [List.length_map, List.length_cons, List.length_nil] at h7
      have hocc : str "a.conf" <:+: str "a:{include b.conf,]" := ⟨pre ++ kw ++ g, rest, by rw [he]; simp⟩
      exact absurd hocc (by decide +kernel)
    · have ha' : (str "a.conf" == ([] ++ f).take 1023) = false := by simpa using ha
      simp only [ha'] at hc h2
      by_cases hb2 : (str "b.conf" == ([] ++ f).take 1023) = true
      · simp only [hb2] at h2
        exact h2 (by simp)
      · have hb3 : (str "b.conf" == ([] ++ f).take 1023) = false := by simpa using hb2
        simp only [hb3] at hc
        simp at hc

/-- A text that ends within a name is read on behind its end. -/
theorem C107_end_violated (r : Option Node) : ¬ Loads alone (str "{abc") r := by
  rintro ⟨fuel, h⟩
  have h0 : load alone fuel (str "{abc") = none := by
    match fuel with
    | 0 => with_unfolding_all rfl
    | 1 => with_unfolding_all rfl
    | n + 2 => with_unfolding_all rfl
  rw [h0] at h
  exact absurd h (by simp)

/-- A file that includes itself. -/
def loop₀ : Env := files [("a.conf", "include a.conf")]

theorem loop₀_none (fuel : Nat) : (∀ n e, parseInclude loop₀ fuel n (str "include a.conf") e = none) ∧
    ∀ d n e, includeLoop loop₀ fuel d n (str "include a.conf") e = none := by
  induction fuel with
  | zero => exact ⟨fun n e => by rw [parseInclude], fun d n e => by rw [includeLoop]⟩
  | succ fuel ih =>
    have h1 : fileText loop₀ ((loop₀.path ++ (skip ((str "include a.conf").drop 7)).takeWhile fun c => wordCh c && !sepCh c).take 1023) = some (str "include a.conf") := by
      decide +kernel
    have h2 : skip (str "include a.conf") = str "include a.conf" := by decide +kernel
    have h3 : isInclude (str "include a.conf") = true := by decide +kernel
    refine ⟨?_, ?_⟩
    · intro n e
      rw [parseInclude, h1]
      simp only [h2, ih.2]
    · intro d n e
      rw [includeLoop, if_neg (by decide +kernel), h2, if_pos h3, ih.1]

/-- Reading a file that includes itself does not come to an end. -/
theorem C107_loop_violated (r : Option (List Node)) : ¬ Opens loop₀ (str "a.conf") r := by
  rintro ⟨fuel, h⟩
  have h1 : fileText loop₀ (str "a.conf") = some (str "include a.conf") := by decide +kernel
  have h2 : skip (str "include a.conf") = str "include a.conf" := by decide +kernel
  have h3 : isInclude (str "include a.conf") = true := by decide +kernel
  unfold openFile at h
  rw [h1] at h
  simp only [h2] at h
  cases fuel with
  | zero => rw [topLoop] at h; exact absurd h (by simp)
  | succ f =>
    rw [topLoop, if_neg (by decide +kernel), h2, if_pos h3, (loop₀_none f).1] at h
    exact absurd h (by simp)

/-! ### C108 -/

/-- Whatever a script contains, the pieces in which its file is read do not matter. -/
theorem C108_pieces (v : Env) (chunks : List Bytes) (r : List (Option Node)) : Runs v chunks r ↔ Runs v [chunks.flatten] r := by
  have h0 : taken ([] : Bytes) = ([], []) := taken_none (by rw [matchSign])
  have e : texts [] chunks = texts [] [chunks.flatten] := by
    rw [texts_taken chunks [] h0, texts_taken [chunks.flatten] [] h0]
    simp
  unfold Runs sub
  rw [e]

/-- A script of objects, with blanks and comments between them, is run object by object: one call for each, in their order, with the
document it stands for, whatever the pieces.  Partial: no brackets in words and names, see below. -/
theorem C108_script_partial (v : Env) (s : Script) (g : Bytes) (chunks : List Bytes) (hs : ∀ o ∈ s, Gap o.1 ∧ (Val.obj o.2.1 o.2.2).Ok v ∧ (Val.obj o.2.1 o.2.2).Plain)
    (hg : Gap g) (hc : chunks.flatten = s.text ++ g) : Runs v chunks (s.map fun o => some ((Val.obj o.2.1 o.2.2).node none)) := by
  have h0 : taken ([] : Bytes) = ([], []) := taken_none (by rw [matchSign])
  have e : texts [] chunks = s.map fun o => o.1 ++ (Val.obj o.2.1 o.2.2).text := by
    rw [texts_taken chunks [] h0, List.nil_append, hc, taken_script v s hs hg]
  unfold Runs sub
  rw [e]
  refine ⟨(s.map fun o => (Val.obj o.2.1 o.2.2).size).sum, ?_⟩
  have hm : ∀ (l : Script) (f : Nat), (∀ o ∈ l, Gap o.1 ∧ (Val.obj o.2.1 o.2.2).Ok v) → (l.map fun o => (Val.obj o.2.1 o.2.2).size).sum ≤ f →
      (l.map fun o => o.1 ++ (Val.obj o.2.1 o.2.2).text).mapM (load v f) = some (l.map fun o => some ((Val.obj o.2.1 o.2.2).node none)) := by
    intro l f
    induction l with
    | nil => intro _ _; rfl
    | cons o l ih =>
      intro h hf
      rw [List.map_cons, List.sum_cons] at hf
      obtain ⟨h1, h2⟩ := h o (by simp)
      have := load_read v h1 h2 stop_nil f (by omega)
      rw [List.append_nil] at this
      rw [List.map_cons, List.mapM_cons, this, ih (fun x hx => h x (by simp [hx])) (by omega)]
      rfl
  exact hm s _ (fun o ho => ⟨(hs o ho).1, (hs o ho).2.1⟩) (Nat.le_refl _)

/-- Two objects. -/
def script₀ : Script := [(str "# create {\n", [], .cons [] (str "cmd") [] [] (.word (str "create")) [] .nil), (str "\n", [], .cons [] (str "cmd") [] [] (.word (str "open")) [] .nil)]

/-- They meet the hypotheses, and are run as two objects although the file is cut in the first one. -/
example : Runs alone [str "# create {\n{cmd:cr", str "eate}\n{cmd:open}\n"]
    [some (.mk .object none none [.mk .string (some (str "cmd")) (some (str "create")) []]), some (.mk .object none none [.mk .string (some (str "cmd")) (some (str "open")) []])] := by
  have hkey : KeyOk (str "cmd") := key_ok (by decide +kernel)
  have h := C108_script_partial alone script₀ (str "\n") [str "# create {\n{cmd:cr", str "eate}\n{cmd:open}\n"] (by
    intro o ho
    simp only [script₀, List.mem_cons, List.not_mem_nil, or_false] at ho
    rcases ho with rfl | rfl
    · refine ⟨?_, ?_, ?_⟩
      · rw [show str "# create {\n" = 35 :: (str " create {" ++ 10 :: []) by decide +kernel]
        exact .note (by decide +kernel) (Or.inl rfl) .nil
      · simp only [Val.Ok, Mems.Ok]
        exact ⟨.nil, .nil, hkey, fun _ h => absurd h (by simp), .nil, word_ok (by decide +kernel), .nil, fun h => absurd h (by decide), trivial⟩
      · simp only [Val.Plain, Mems.Plain]
        exact ⟨by decide +kernel, by decide +kernel, trivial⟩
    · refine ⟨gap_blanks (by decide +kernel), ?_, ?_⟩
      · simp only [Val.Ok, Mems.Ok]
        exact ⟨.nil, .nil, hkey, fun _ h => absurd h (by simp), .nil, word_ok (by decide +kernel), .nil, fun h => absurd h (by decide), trivial⟩
      · simp only [Val.Plain, Mems.Plain]
        exact ⟨by decide +kernel, by decide +kernel, trivial⟩) (gap_blanks (by decide +kernel)) (by decide +kernel)
  simpa [script₀, Val.node, Mems.nodes] using h

/-- An object with a bracket in quotes is never run, although it is read as it is written. -/
theorem C108_quoted_violated : Runs alone [str "{a:\"{\"}\n"] [] ∧
    Loads alone (str "{a:\"{\"}\n") (some (.mk .object none none [.mk .string (some (str "a")) (some (str "{")) []])) :=
  ⟨⟨10, by with_unfolding_all rfl⟩, ⟨10, by with_unfolding_all rfl⟩⟩

/-- With a script in which an object has a name without a value, memory behind the text is read. -/
theorem C108_end_violated (r : List (Option Node)) : ¬ Runs alone [str "{abc}\n"] r := by
  rintro ⟨fuel, h⟩
  have h0 : sub alone fuel [str "{abc}\n"] = none := by
    match fuel with
    | 0 => with_unfolding_all rfl
    | 1 => with_unfolding_all rfl
    | n + 2 => with_unfolding_all rfl
  rw [h0] at h
  exact absurd h (by simp)

end Sis.Conf
