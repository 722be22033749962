import Verif.Props.SlcanStream

/-!
# Commands executed through the SLCAN driver (C74)
-/

namespace Dronecan
namespace Slcan
open Can

variable {σ : Type} (env : REnv σ)

/-! ## Specification -/

/-- The responses in the output: the command, the lines, whether it expired. -/
def responses (out : List Item) : List (List Byte × List (List Byte) × Bool) := out.filterMap fun
  | .response cmd lines expired => some (cmd, lines, expired)
  | _ => none

/-- The commands that have not been answered: the one being executed, and those waiting. -/
def waiting (s : Rx σ) : List Cmd := s.cmd.toList ++ s.pending

/-- A worker that has just been started. -/
def Started (s : Rx σ) : Prop := s.cmd = none ∧ s.resp = [] ∧ s.pending = [] ∧ s.out = [] ∧ s.cli = []

/-- The lines are what the adapter said between the echo of the command and its end of text (byte 3). -/
def Said (cli : List (List Byte)) (cmd : List Byte) (lines : List (List Byte)) : Prop :=
  [3#8] ∉ lines ∧ ∃ before after, cli = before ++ cmd :: (lines ++ [3#8] :: after)

/-! ## Proofs -/

theorem responses_append (a b : List Item) : responses (a ++ b) = responses a ++ responses b := by
  simp [responses]

/-- Everything but the frames and the estimator. -/
structure SameButFrames (s s' : Rx σ) : Prop where
  out : responses s'.out = responses s.out
  cmd : s'.cmd = s.cmd
  resp : s'.resp = s.resp
  pending : s'.pending = s.pending
  cli : s'.cli = s.cli

theorem SameButFrames.refl (s : Rx σ) : SameButFrames s s := ⟨rfl, rfl, rfl, rfl, rfl⟩

theorem SameButFrames.trans {a b c : Rx σ} (h : SameButFrames a b) (h' : SameButFrames b c) : SameButFrames a c :=
  ⟨h'.out.trans h.out, h'.cmd.trans h.cmd, h'.resp.trans h.resp, h'.pending.trans h.pending, h'.cli.trans h.cli⟩

theorem processLine_same (ts : Stamp) (s : Rx σ) (line : List Byte) : SameButFrames s (processLine env ts s line) := by
  unfold processLine
  split
  · exact .refl s
  · exact .refl s
  · split
    · exact ⟨by simp [responses], rfl, rfl, rfl, rfl⟩
    · split <;> exact ⟨by simp [responses], rfl, rfl, rfl, rfl⟩

theorem processLines_same (ts : Stamp) (lines : List (List Byte)) : ∀ s : Rx σ,
    SameButFrames s (processLines env ts s lines) := by
  induction lines with
  | nil => intro s; exact .refl s
  | cons l lines ih => intro s; exact (processLine_same env ts s l).trans (ih _)

/-- What is collected: the echo of the command and everything after it; or there is a line in it that can never be
shipped. -/
def Collecting (s : Rx σ) : Prop :=
  s.resp = [] ∨ s.cmd = none ∨ ∃ c, s.cmd = some c ∧ ∃ before after, s.cli = before ++ c.text :: after ∧
    ∃ e, s.resp = e :: s.resp.drop 1 ∧ ((s.resp.drop 1 = after ∧ [ETX] ∉ after) ∨ (s.resp.drop 1).all env.utf8 = false)

/-- All responses that are not expired are what the adapter said. -/
def AllSaid (s : Rx σ) : Prop := ∀ x ∈ responses s.out, x.2.2 = false → Said s.cli x.1 x.2.1 ∧ x.2.1.all env.utf8 = true

theorem said_snoc {cli : List (List Byte)} {cmd : List Byte} {lines : List (List Byte)} (l : List Byte)
    (h : Said cli cmd lines) : Said (cli ++ [l]) cmd lines := by
  obtain ⟨h1, a, b, rfl⟩ := h
  exact ⟨h1, a, b ++ [l], by simp⟩

/-- The queue: what was answered, and what is waiting. -/
def answered (s : Rx σ) : List (List Byte) := (responses s.out).map (·.1) ++ (waiting s).map (·.text)

theorem processCli_step (s : Rx σ) (line : List Byte) (h1 : Collecting env s) (h2 : AllSaid env s) :
    Collecting env (processCli env s line).2 ∧ AllSaid env (processCli env s line).2 ∧
    answered (processCli env s line).2 = answered s ∧
    ∃ new, responses (processCli env s line).2.out = responses s.out ++ new ∧ ∀ x ∈ new, x.2.2 = false := by
  have hAll : AllSaid env { s with cli := s.cli ++ [line] } := fun x hx he => ⟨said_snoc line (h2 x hx he).1, (h2 x hx he).2⟩
  unfold processCli
  dsimp only
  split
  · rename_i hr
    have hr : s.resp = [] := List.length_eq_zero_iff.1 hr
    split
    · rename_i c hc
      split
      · rename_i hl
        refine ⟨?_, hAll, rfl, [], by simp, by simp⟩
        refine .inr (.inr ⟨c, hc, s.cli, [], by simp [hl], line, by simp [hr], .inl ?_⟩)
        simp [hr]
      · exact ⟨.inl hr, hAll, rfl, [], by simp, by simp⟩
    · exact ⟨.inl hr, hAll, rfl, [], by simp, by simp⟩
  · rename_i hr
    have hr : s.resp ≠ [] := fun h => hr (by rw [h]; rfl)
    split
    · rename_i hl
      split
      · rename_i hc
        exact ⟨.inr (.inl hc), hAll, rfl, [], by simp, by simp⟩
      · rename_i c hc
        split
        · rename_i hu
          -- the response is shipped
          rcases h1 with h1 | h1 | ⟨c', hc', before, after, e1, e, e2, e3⟩
          · exact absurd h1 hr
          · rw [h1] at hc; cases hc
          · have hcc : c' = c := by rw [hc] at hc'; injection hc' with h; exact h.symm
            subst hcc
            rcases e3 with ⟨e3, e4⟩ | e3
            · have hsaid : Said (s.cli ++ [line]) c'.text (s.resp.drop 1) :=
                ⟨e3 ▸ e4, before, [], by rw [e1, e3, hl]; simp [ETX]⟩
              have hAll' : AllSaid env { s with
                  cli := s.cli ++ [line]
                  out := s.out ++ [.response c'.text (s.resp.drop 1) false] } := by
                intro x hx he
                simp only [responses_append, List.mem_append] at hx
                rcases hx with hx | hx
                · exact hAll x hx he
                · have hx : x = (c'.text, s.resp.drop 1, false) := by simpa [responses] using hx
                  subst hx
                  exact ⟨hsaid, hu⟩
              split
              · rename_i hp
                refine ⟨.inl rfl, hAll', ?_, [(c'.text, s.resp.drop 1, false)], by simp [responses], by simp⟩
                simp [answered, waiting, responses_append, hc, hp, responses]
              · rename_i c'' rest hp
                refine ⟨.inl rfl, hAll', ?_, [(c'.text, s.resp.drop 1, false)], by simp [responses], by simp⟩
                simp [answered, waiting, responses_append, hc, hp, responses]
            · rw [e3] at hu; cases hu
        · rename_i hu
          refine ⟨?_, hAll, rfl, [], by simp, by simp⟩
          rcases h1 with h1 | h1 | ⟨c', hc', before, after, e1, e, e2, e3⟩
          · exact .inl h1
          · exact .inr (.inl h1)
          · exact .inr (.inr ⟨c', hc', before, after ++ [line], by simp [e1], e, e2, .inr (by simpa using hu)⟩)
    · rename_i hl
      refine ⟨?_, hAll, rfl, [], by simp, by simp⟩
      rcases h1 with h1 | h1 | ⟨c', hc', before, after, e1, e, e2, e3⟩
      · exact absurd h1 hr
      · exact .inr (.inl h1)
      · refine .inr (.inr ⟨c', hc', before, after ++ [line], by simp [e1], e, ?_, ?_⟩)
        · rw [e2]; simp
        · have hd : (s.resp ++ [line]).drop 1 = s.resp.drop 1 ++ [line] := by rw [e2]; simp
          simp only [hd]
          rcases e3 with ⟨e3, e4⟩ | e3
          · left
            rw [e3]
            refine ⟨rfl, ?_⟩
            simp only [List.mem_append, List.mem_singleton, not_or]
            exact ⟨e4, fun h => hl h.symm⟩
          · right
            rw [List.all_append, e3]; rfl

theorem same_collecting {s s' : Rx σ} (h : SameButFrames s s') (h1 : Collecting env s) : Collecting env s' := by
  unfold Collecting at *
  rw [h.resp, h.cmd, h.cli]
  exact h1

theorem same_allSaid {s s' : Rx σ} (h : SameButFrames s s') (h1 : AllSaid env s) : AllSaid env s' := by
  unfold AllSaid at *
  rw [h.out, h.cli]
  exact h1

theorem same_answered {s s' : Rx σ} (h : SameButFrames s s') : answered s' = answered s := by
  unfold answered waiting
  rw [h.out, h.cmd, h.pending]

theorem processCliLines_step (ts : Stamp) (lns : List (List Byte)) : ∀ s : Rx σ, Collecting env s → AllSaid env s →
    Collecting env (processCliLines env ts s lns).2 ∧ AllSaid env (processCliLines env ts s lns).2 ∧
    answered (processCliLines env ts s lns).2 = answered s ∧
    ∃ new, responses (processCliLines env ts s lns).2.out = responses s.out ++ new ∧ ∀ x ∈ new, x.2.2 = false := by
  induction lns with
  | nil => intro s h1 h2; exact ⟨h1, h2, rfl, [], by simp [processCliLines], by simp⟩
  | cons ln lns ih =>
    intro s h1 h2
    have hs := processLines_same env ts (unsnoc (splitOn CR ln)).1 s
    obtain ⟨a1, a2, a3, new, a4, a5⟩ := processCli_step env (processLines env ts s (unsnoc (splitOn CR ln)).1)
      (unsnoc (splitOn CR ln)).2 (same_collecting env hs h1) (same_allSaid env hs h2)
    rw [same_answered hs] at a3
    rw [hs.out] at a4
    simp only [processCliLines]
    generalize processCli env (processLines env ts s (unsnoc (splitOn CR ln)).1) (unsnoc (splitOn CR ln)).2 = out at a1 a2 a3 a4
    obtain ⟨r, s1⟩ := out
    cases r with
    | error e => exact ⟨a1, a2, a3, new, a4, a5⟩
    | ok u =>
      obtain ⟨b1, b2, b3, new', b4, b5⟩ := ih s1 a1 a2
      refine ⟨b1, b2, b3.trans a3, new ++ new', ?_, ?_⟩
      · simp only at b4 a4; rw [b4, a4, List.append_assoc]
      · intro x hx
        rcases List.mem_append.1 hx with hx | hx
        · exact a5 x hx
        · exact b5 x hx

/-- The response for an expired command. -/
def expiry (c : Cmd) : List Byte × List (List Byte) × Bool := (c.text, [], true)

theorem fetch_spec (now : Int) (l : List Cmd) : ∀ s : Rx σ, s.cmd = none → AllSaid env s →
    let s' := checkCommands.fetch now (fun out c => out ++ [Item.response c.text [] true]) s l
    responses s'.out = responses s.out ++ (l.takeWhile (·.deadline ≤ now)).map expiry ∧
      waiting s' = l.dropWhile (·.deadline ≤ now) ∧ (Collecting env s') ∧ AllSaid env s' := by
  induction l with
  | nil =>
    intro s hc h
    refine ⟨by simp [checkCommands.fetch], ?_, ?_, h⟩
    · simp [checkCommands.fetch, waiting, hc]
    · exact .inr (.inl hc)
  | cons c l ih =>
    intro s hc h
    dsimp only
    unfold checkCommands.fetch
    by_cases hd : now ≥ c.deadline
    · rw [if_pos hd]
      obtain ⟨a1, a2, a3, a4⟩ := ih { s with
        resp := []
        out := s.out ++ [Item.response c.text [] true] } hc (by
          intro x hx he
          simp only [responses_append, List.mem_append] at hx
          rcases hx with hx | hx
          · exact h x hx he
          · simp [responses] at hx
            subst hx
            cases he)
      refine ⟨?_, ?_, a3, a4⟩
      · rw [a1, List.takeWhile_cons, if_pos (by simpa using hd)]
        simp [responses, expiry]
      · rw [a2, List.dropWhile_cons, if_pos (by simpa using hd)]
    · rw [if_neg hd]
      refine ⟨?_, ?_, .inl rfl, h⟩
      · rw [List.takeWhile_cons, if_neg (by simpa using hd)]; simp
      · rw [List.dropWhile_cons, if_neg (by simpa using hd)]; simp [waiting]

theorem checkCommands_spec (now : Int) (s : Rx σ) (h1 : Collecting env s) (h2 : AllSaid env s) :
    responses (checkCommands now s).out = responses s.out ++ ((waiting s).takeWhile (·.deadline ≤ now)).map expiry ∧
      waiting (checkCommands now s) = (waiting s).dropWhile (·.deadline ≤ now) ∧ Collecting env (checkCommands now s) ∧
      AllSaid env (checkCommands now s) := by
  unfold checkCommands
  dsimp only
  split
  · rename_i c hc
    by_cases hd : now ≥ c.deadline
    · rw [if_pos hd]
      have hw : waiting s = c :: s.pending := by simp [waiting, hc]
      obtain ⟨a1, a2, a3, a4⟩ := fetch_spec env now s.pending { s with
        cmd := none
        out := s.out ++ [Item.response c.text [] true] } rfl (by
          intro x hx he
          simp only [responses_append, List.mem_append] at hx
          rcases hx with hx | hx
          · exact h2 x hx he
          · simp [responses] at hx
            subst hx
            cases he)
      refine ⟨?_, ?_, a3, a4⟩
      · rw [a1, hw, List.takeWhile_cons, if_pos (by simpa using hd)]
        simp [responses, expiry]
      · rw [a2, hw, List.dropWhile_cons, if_pos (by simpa using hd)]
    · rw [if_neg hd]
      have hw : waiting s = c :: s.pending := by simp [waiting, hc]
      refine ⟨?_, ?_, h1, h2⟩
      · rw [hw, List.takeWhile_cons, if_neg (by simpa using hd)]; simp
      · rw [hw, List.dropWhile_cons, if_neg (by simpa using hd)]
  · rename_i hc
    have hw : waiting s = s.pending := by simp [waiting, hc]
    rw [hw]
    exact fetch_spec env now s.pending s hc h2

/-- One iteration: first the commands whose time is over, then those that were answered. -/
theorem iteration_commands (s : Rx σ) (new : List Byte) (ts : Stamp) (now : Int) (h1 : Collecting env s) (h2 : AllSaid env s) :
    ∃ done, responses (iteration env s new ts now).out =
        responses s.out ++ ((waiting s).takeWhile (·.deadline ≤ now)).map expiry ++ done ∧
      (∀ x ∈ done, x.2.2 = false) ∧
      done.map (·.1) ++ (waiting (iteration env s new ts now)).map (·.text) =
        ((waiting s).dropWhile (·.deadline ≤ now)).map (·.text) ∧
      Collecting env (iteration env s new ts now) ∧ AllSaid env (iteration env s new ts now) := by
  obtain ⟨c1, c2, c3, c4⟩ := checkCommands_spec env now { s with data := s.data ++ new } h1 h2
  have hw : waiting { s with data := s.data ++ new } = waiting s := rfl
  rw [hw] at c1 c2
  simp only [iteration]
  generalize checkCommands now { s with data := s.data ++ new } = s1 at c1 c2 c3 c4
  split
  · have hs := processLines_same env ts (unsnoc (splitOn CR s1.data)).1 { s1 with data := (unsnoc (splitOn CR s1.data)).2 }
    refine ⟨[], ?_, by simp, ?_, same_collecting env hs c3, same_allSaid env hs c4⟩
    · rw [hs.out, List.append_nil]; exact c1
    · simp only [waiting, hs.cmd, hs.pending]
      simp only [waiting] at c2
      rw [← c2]; rfl
  · obtain ⟨a1, a2, a3, done, a4, a5⟩ := processCliLines_step env ts (unsnoc (splitCrLf s1.data)).1
      { s1 with data := (unsnoc (splitCrLf s1.data)).2 } c3 c4
    have hdone : ∀ s2 : Rx σ, answered s2 = answered s1 → responses s2.out = responses s1.out ++ done →
        done.map (·.1) ++ (waiting s2).map (·.text) = ((waiting s).dropWhile (·.deadline ≤ now)).map (·.text) := by
      intro s2 e1 e2
      unfold answered at e1
      rw [e2, List.map_append, List.append_assoc, List.append_cancel_left_eq, c2] at e1
      exact e1
    generalize processCliLines env ts { s1 with data := (unsnoc (splitCrLf s1.data)).2 } (unsnoc (splitCrLf s1.data)).1 = out
      at a1 a2 a3 a4
    obtain ⟨r, s2⟩ := out
    simp only at a1 a2 a3 a4
    cases r with
    | error e =>
      have hout : responses (s2.out ++ [.failure e]) = responses s2.out := by simp [responses]
      refine ⟨done, ?_, a5, ?_, a1, ?_⟩
      · dsimp only; rw [hout, a4, c1]
      · exact hdone { s2 with out := s2.out ++ [.failure e] } (by
          refine Eq.trans ?_ a3
          simp only [answered, hout]
          rfl)
          (by simp only [hout]; exact a4)
      · intro x hx he
        simp only [hout] at hx
        exact a2 x hx he
    | ok u =>
      dsimp only
      have hs := processLines_same env ts (unsnoc (splitOn CR s2.data.dropLast)).1
        { s2 with data := (unsnoc (splitOn CR s2.data.dropLast)).2 ++ s2.data.drop (s2.data.length - 1) }
      refine ⟨done, ?_, a5, ?_, same_collecting env hs a1, same_allSaid env hs a2⟩
      · rw [hs.out]; dsimp only; rw [a4, c1]
      · exact hdone _ ((same_answered hs).trans a3) (hs.out.trans a4)

theorem run_commands (reads : List Read) : ∀ s : Rx σ, Collecting env s → AllSaid env s →
    answered (run env s reads) = answered s ++ (reads.flatMap (·.cmds)).map (·.text) ∧
      Collecting env (run env s reads) ∧ AllSaid env (run env s reads) := by
  induction reads with
  | nil => intro s h1 h2; exact ⟨by simp [run], h1, h2⟩
  | cons r reads ih =>
    intro s h1 h2
    have h1' : Collecting env { s with pending := s.pending ++ r.cmds } := h1
    have h2' : AllSaid env { s with pending := s.pending ++ r.cmds } := h2
    obtain ⟨done, a1, a2, a3, a4, a5⟩ := iteration_commands env { s with pending := s.pending ++ r.cmds } r.new r.ts r.now h1' h2'
    obtain ⟨b1, b2, b3⟩ := ih (iteration env { s with pending := s.pending ++ r.cmds } r.new r.ts r.now) a4 a5
    refine ⟨?_, b2, b3⟩
    show answered (run env (iteration env { s with pending := s.pending ++ r.cmds } r.new r.ts r.now) reads) = _
    rw [b1]
    have hq : waiting { s with pending := s.pending ++ r.cmds } = waiting s ++ r.cmds := by simp [waiting]
    have e : answered (iteration env { s with pending := s.pending ++ r.cmds } r.new r.ts r.now) =
        answered s ++ r.cmds.map (·.text) := by
      unfold answered
      rw [a1, List.map_append, List.map_append, List.append_assoc, a3, List.map_map]
      have : ((·.1) ∘ expiry) = Cmd.text := rfl
      rw [this, List.append_assoc, ← List.map_append, List.takeWhile_append_dropWhile, hq, List.map_append, List.append_assoc]
    rw [e, List.flatMap_cons, List.map_append, List.append_assoc]

/-! ## Theorems -/

theorem started_collecting {s : Rx σ} (h : Started s) : Collecting env s ∧ AllSaid env s ∧ answered s = [] := by
  obtain ⟨h1, h2, h3, h4, h5⟩ := h
  refine ⟨.inl h2, ?_, by simp [answered, waiting, h1, h3, h4, responses]⟩
  intro x hx
  rw [h4] at hx
  cases hx

/-- Whatever is received and whenever commands are queued: the responses are for the commands queued, one each, in order;
those without a response are still waiting. -/
theorem C74_order (s : Rx σ) (h : Started s) (reads : List Read) :
    (responses (run env s reads).out).map (·.1) ++ (waiting (run env s reads)).map (·.text) =
      (reads.flatMap (·.cmds)).map (·.text) := by
  obtain ⟨h1, h2, h3⟩ := started_collecting env h
  have := (run_commands env reads s h1 h2).1
  rw [h3] at this
  exact this

/-- With each read, the commands at the head of the queue whose deadline has passed are answered as expired, without lines,
and no others are. -/
theorem C74_expired (s : Rx σ) (h : Started s) (reads : List Read) (r : Read) :
    ∃ done, responses (run env s (reads ++ [r])).out = responses (run env s reads).out ++
        ((waiting (run env s reads) ++ r.cmds).takeWhile (·.deadline ≤ r.now)).map (fun c => (c.text, [], true)) ++ done ∧
      ∀ x ∈ done, x.2.2 = false := by
  obtain ⟨h1, h2, -⟩ := started_collecting env h
  obtain ⟨-, h3, h4⟩ := run_commands env reads s h1 h2
  have hrun : run env s (reads ++ [r]) = iteration env
      { run env s reads with pending := (run env s reads).pending ++ r.cmds } r.new r.ts r.now := by
    simp [run, List.foldl_append]
  rw [hrun]
  have hq : waiting { run env s reads with pending := (run env s reads).pending ++ r.cmds } =
      waiting (run env s reads) ++ r.cmds := by simp [waiting]
  obtain ⟨done, a1, a2, -⟩ := iteration_commands env
    { run env s reads with pending := (run env s reads).pending ++ r.cmds } r.new r.ts r.now h3 h4
  rw [hq] at a1
  exact ⟨done, a1, a2⟩

/-- The lines of a response that is not expired are valid UTF-8, and are exactly what the adapter said between the echo of
the command and its end of text. -/
theorem C74_lines (s : Rx σ) (h : Started s) (reads : List Read) (cmd : List Byte) (lines : List (List Byte))
    (hx : (cmd, lines, false) ∈ responses (run env s reads).out) :
    Said (run env s reads).cli cmd lines ∧ lines.all env.utf8 = true := by
  obtain ⟨h1, h2, -⟩ := started_collecting env h
  exact (run_commands env reads s h1 h2).2.2 _ hx rfl

/-- The lines as the adapter sends them. -/
def asSent (lines : List (List Byte)) : List Byte := (lines.map (· ++ [CR, LF])).flatten

theorem splitCrLf_cons (rest : List Byte) : ∀ l : List Byte, CR ∉ l → splitCrLf (l ++ CR :: LF :: rest) = l :: splitCrLf rest := by
  intro l
  induction l with
  | nil => intro _; simp [splitCrLf]
  | cons c l ih =>
    intro h
    have hc : c ≠ CR := fun e => h (e ▸ List.mem_cons_self)
    have ih := ih (fun e => h (List.mem_cons_of_mem _ e))
    cases l with
    | nil =>
      simp only [List.nil_append] at ih
      simp only [List.cons_append, List.nil_append, splitCrLf, hc, false_and, if_false]
      simp
    | cons d l =>
      simp only [List.cons_append] at ih ⊢
      simp only [splitCrLf, hc, false_and, if_false, ih]

theorem splitCrLf_sent (lines : List (List Byte)) (h : ∀ l ∈ lines, CR ∉ l) : splitCrLf (asSent lines) = lines ++ [[]] := by
  induction lines with
  | nil => rfl
  | cons l lines ih =>
    have : asSent (l :: lines) = l ++ CR :: LF :: asSent lines := by simp [asSent]
    rw [this, splitCrLf_cons _ l (h l List.mem_cons_self), ih (fun x hx => h x (List.mem_cons_of_mem _ hx)), List.cons_append]

theorem processCliLines_plain (ts : Stamp) (s : Rx σ) (l : List Byte) (lines : List (List Byte)) (h : CR ∉ l) :
    processCliLines env ts s (l :: lines) = match processCli env s l with
      | (.ok _, s) => processCliLines env ts s lines
      | (.error e, s) => (.error e, s) := by
  have h1 := linesOf_plain l h [] []
  simp only [List.append_nil, List.nil_append] at h1
  rw [processCliLines, splitOn_lines, h1.1, h1.2]
  rfl

/-- If the adapter echoes the command, in time, and then says something and the end of text, the command is answered with
what it said; then it is the next command's turn. -/
theorem C74_answered (s : Rx σ) (c : Cmd) (hc : s.cmd = some c) (hr : s.resp = []) (hd : s.data = []) (r : Read)
    (ht : r.now < c.deadline) (before lines : List (List Byte))
    (hnew : r.new = asSent (before ++ c.text :: lines ++ [[ETX]]))
    (hcr : ∀ l ∈ before ++ c.text :: lines, CR ∉ l) (hb : c.text ∉ before) (hl : [ETX] ∉ lines)
    (hu : ∀ l ∈ lines, env.utf8 l = true) :
    (run env s [r]).out = s.out ++ [.response c.text lines false] ∧ (run env s [r]).resp = [] ∧ (run env s [r]).data = [] ∧
      (run env s [r]).cmd.toList ++ (run env s [r]).pending = s.pending ++ r.cmds := by
  have hcheck : ∀ s' : Rx σ, s'.cmd = some c → checkCommands r.now s' = s' := by
    intro s' h
    simp only [checkCommands, h]
    rw [if_neg (by omega)]
  have hsplit : unsnoc (splitCrLf ([] ++ asSent (before ++ c.text :: lines ++ [[ETX]]))) =
      (before ++ c.text :: lines ++ [[ETX]], []) := by
    rw [List.nil_append, splitCrLf_sent, unsnoc, List.dropLast_concat, List.getLastD_concat]
    intro l h
    rcases List.mem_append.1 h with h | h
    · exact hcr l h
    · have : l = [ETX] := by simpa using h
      subst this
      simp [ETX, CR]
  have hrun : run env s [r] = iteration env { s with pending := s.pending ++ r.cmds } r.new r.ts r.now := rfl
  have hck := hcheck { s with
    pending := s.pending ++ r.cmds
    data := s.data ++ r.new } hc
  rw [hrun, iteration]
  simp only [hck]
  rw [hnew, hd]
  simp only [hc, hsplit]
  -- before the echo
  have h1 : ∀ (before : List (List Byte)) (s' : Rx σ) (rest : List (List Byte)), s'.cmd = some c → s'.resp = [] →
      (∀ l ∈ before, CR ∉ l) → c.text ∉ before →
      processCliLines env r.ts s' (before ++ rest) = processCliLines env r.ts { s' with cli := s'.cli ++ before } rest := by
    intro before
    induction before with
    | nil => intro s' rest h1 h2 _ _; simp
    | cons l before ih =>
      intro s' rest h1 h2 h3 h4
      have hne : l ≠ c.text := fun e => h4 (e ▸ List.mem_cons_self)
      have hp : processCli env s' l = (.ok (), { s' with cli := s'.cli ++ [l] }) := by
        simp [processCli, h1, h2, hne]
      rw [List.cons_append, processCliLines_plain env r.ts s' l _ (h3 l List.mem_cons_self), hp]
      dsimp only
      rw [ih { s' with cli := s'.cli ++ [l] } rest h1 h2 (fun x hx => h3 x (List.mem_cons_of_mem _ hx))
        (fun hx => h4 (List.mem_cons_of_mem _ hx))]
      simp
  -- after it
  have h2 : ∀ (lines : List (List Byte)) (s' : Rx σ) (rest : List (List Byte)), s'.resp ≠ [] →
      (∀ l ∈ lines, CR ∉ l) → [ETX] ∉ lines →
      processCliLines env r.ts s' (lines ++ rest) = processCliLines env r.ts { s' with
        resp := s'.resp ++ lines
        cli := s'.cli ++ lines } rest := by
    intro lines
    induction lines with
    | nil => intro s' rest _ _ _; simp
    | cons l lines ih =>
      intro s' rest h2 h3 h4
      have hne : l ≠ [ETX] := fun e => h4 (e ▸ List.mem_cons_self)
      have hz : ¬ s'.resp.length = 0 := fun e => h2 (List.length_eq_zero_iff.1 e)
      have hp : processCli env s' l = (.ok (), { s' with
          resp := s'.resp ++ [l]
          cli := s'.cli ++ [l] }) := by
        simp only [processCli, hz, hne, if_false]
      rw [List.cons_append, processCliLines_plain env r.ts s' l _ (h3 l List.mem_cons_self), hp]
      dsimp only
      rw [ih { s' with
        resp := s'.resp ++ [l]
        cli := s'.cli ++ [l] } rest (by simp) (fun x hx => h3 x (List.mem_cons_of_mem _ hx))
        (fun hx => h4 (List.mem_cons_of_mem _ hx))]
      simp
  have hpre : before ++ c.text :: lines ++ [[ETX]] = before ++ (c.text :: (lines ++ [[ETX]])) := by simp
  have hcr1 : ∀ l ∈ before, CR ∉ l := fun l hl => hcr l (List.mem_append_left _ hl)
  have hcr2 : CR ∉ c.text := hcr _ (List.mem_append_right _ List.mem_cons_self)
  have hcr3 : ∀ l ∈ lines, CR ∉ l := fun l hl => hcr l (List.mem_append_right _ (List.mem_cons_of_mem _ hl))
  have hetx : CR ∉ [ETX] := by simp [ETX, CR]
  obtain ⟨data, cmd, resp, pending, out, est, cli, seen⟩ := s
  simp only at hc hr hd
  subst hc hr hd
  rw [hpre, h1 before _ _ rfl rfl hcr1 hb]
  have hp : ∀ cli', processCli env ⟨[], some c, [], pending ++ r.cmds, out, est, cli', seen⟩ c.text =
      (.ok (), ⟨[], some c, [c.text], pending ++ r.cmds, out, est, cli' ++ [c.text], seen⟩) := by
    intro cli'
    simp [processCli]
  rw [processCliLines_plain env r.ts _ c.text _ hcr2, hp]
  simp only []
  rw [h2 lines _ _ (by simp) hcr3 hl]
  rw [processCliLines_plain env r.ts _ [ETX] _ hetx]
  have hall : lines.all env.utf8 = true := List.all_eq_true.2 hu
  cases hq : pending ++ r.cmds with
  | nil =>
    simp [processCli, hall, processCliLines, splitOn, unsnoc, processLines]
  | cons c' rest =>
    simp [processCli, hall, processCliLines, splitOn, unsnoc, processLines]

example : (run (⟨fun _ _ ts => (some ts, ()), fun _ => true⟩ : REnv Unit) { est := (), cmd := some ⟨"?".toList.map ch, 5⟩ }
    [⟨asSent ["x".toList.map ch, "?".toList.map ch, "ab".toList.map ch, [ETX]], (0, 0), 4, []⟩]).out =
    [.response ("?".toList.map ch) ["ab".toList.map ch] false] := by decide +kernel

/-- Two commands: the first is answered, in two reads, with a frame in between; the second expires. -/
def exampleReads : List Read :=
  [⟨"?\r\nab".toList.map ch, (0, 0), 0, [⟨"?".toList.map ch, 5⟩, ⟨"!".toList.map ch, 6⟩]⟩,
   ⟨"c\r\nT000000010\rd\r\n".toList.map ch ++ [ETX, CR, LF], (0, 0), 1, []⟩, ⟨[], (0, 0), 6, []⟩]

def exampleEnv : REnv Unit := ⟨fun _ _ ts => (some ts, ()), fun _ => true⟩

example : Started ({ est := () } : Rx Unit) := ⟨rfl, rfl, rfl, rfl, rfl⟩
example : responses (run exampleEnv { est := () } exampleReads).out =
    [("?".toList.map ch, ["abc".toList.map ch, "d".toList.map ch], false), ("!".toList.map ch, [], true)] := by decide +kernel

end Slcan
end Dronecan
