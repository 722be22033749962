import Verif.Model.Writer

/-!
# The transmission queue of the SocketCAN driver (C88)

The theorems are about every interleaving of the main thread and the writer thread, and every outcome of `socket.send`.
-/

namespace Dronecan
namespace Writer
open Can

/-! ## Specification -/

def acceptedOf (t : List Ev) : List CANFrame := t.filterMap fun
  | .accepted f => some f
  | _ => none

def packetsOf (t : List Ev) : List (List Byte) := t.filterMap fun
  | .packet p => some p
  | _ => none

/-- What the caller was told about transmissions: hooks called and exceptions raised. -/
def reportsOf (t : List Ev) : List Report := t.filterMap fun
  | .hook f => some (.sent f)
  | .raised e => some (.failed e)
  | _ => none

/-- The end of an accepted frame: sent, failed, or forgotten on closing. -/
inductive Fate where
  | sent
  | failed (e : Exn)
  | forgotten
deriving DecidableEq, Repr

def Fate.report (f : CANFrame) : Fate → Option Report
  | .sent => some (.sent f)
  | .failed e => some (.failed e)
  | .forgotten => none

/-- The messages of the frames that were sent. -/
def sentPackets (be : Bool) (l : List (CANFrame × Fate)) : List (List Byte) :=
  l.filterMap (fun x => if x.2 = .sent then (Packet.socketPacket be x.1).toOption else none)

def reports (l : List (CANFrame × Fate)) : List Report := l.filterMap (fun x => x.2.report x.1)

/-! ## Invariant -/

def Phase.frames : Phase → List CANFrame
  | .idle => []
  | .working f => [f]
  | .written f => [f]

def Phase.packets (be : Bool) : Phase → List (List Byte)
  | .written f => ((Packet.socketPacket be f).toOption).toList
  | _ => []

structure Inv (be : Bool) (s : State) (done : List (CANFrame × Fate)) : Prop where
  accepted : acceptedOf s.trace = done.map Prod.fst ++ s.phase.frames ++ s.queue
  packets : packetsOf s.trace = sentPackets be done ++ s.phase.packets be
  reports : reportsOf s.trace ++ s.feedback = reports done
  valid : ∀ f, (f, Fate.sent) ∈ done ∨ s.phase = .written f → ∃ p, Packet.socketPacket be f = .ok p
  running : s.stop = false → ∀ x ∈ done, x.2 ≠ .forgotten
  room : s.queue.length ≤ queueSize
  bounded : s.feedback.length + s.phase.frames.length + s.queue.length ≤ queueSize + 1

theorem Inv.nil (be : Bool) : Inv be {} [] where
  accepted := rfl
  packets := rfl
  reports := rfl
  valid := by
    rintro f (h | h)
    · cases h
    · cases h
  running := by intro _ x hx; cases hx
  room := Nat.zero_le _
  bounded := Nat.zero_le _

theorem phase_one (p : Phase) : p.frames.length ≤ 1 := by cases p <;> simp [Phase.frames]

/-- What `_check_write_feedback` does. -/
theorem check_spec (s : State) : (s.feedback = [] ∧ check s = (s, false)) ∨
    ∃ r rest, s.feedback = r :: rest ∧ (check s).1.feedback = rest ∧ (check s).1.queue = s.queue ∧ (check s).1.phase = s.phase ∧
      (check s).1.stop = s.stop ∧ (∃ e, (check s).1.trace = s.trace ++ [e] ∧ reportsOf [e] = [r] ∧ acceptedOf [e] = [] ∧ packetsOf [e] = []) ∧
      ((check s).2 = true ↔ ∃ e, r = .failed e) := by
  obtain ⟨q, fb, ph, st, tr⟩ := s
  cases fb with
  | nil => exact .inl ⟨rfl, rfl⟩
  | cons r rest =>
    refine .inr ⟨r, rest, rfl, ?_⟩
    cases r with
    | sent f => exact ⟨rfl, rfl, rfl, rfl, ⟨.hook f, rfl, rfl, rfl, rfl⟩, by simp [check]⟩
    | failed e => exact ⟨rfl, rfl, rfl, rfl, ⟨.raised e, rfl, rfl, rfl, rfl⟩, by simp [check]⟩

theorem check_inv (be : Bool) (s : State) (done : List (CANFrame × Fate)) (h : Inv be s done) : Inv be (check s).1 done := by
  rcases check_spec s with ⟨h1, h2⟩ | ⟨r, rest, h1, h2, h3, h4, h5, ⟨e, h6, h7, h8, h9⟩, -⟩
  · rw [h2]; exact h
  · constructor
    · rw [h6, h3, h4, ← h.accepted]
      unfold acceptedOf at h8 ⊢
      rw [List.filterMap_append, h8, List.append_nil]
    · rw [h6, h4, ← h.packets]
      unfold packetsOf at h9 ⊢
      rw [List.filterMap_append, h9, List.append_nil]
    · rw [h6, h2, ← h.reports, h1]
      unfold reportsOf at h7 ⊢
      rw [List.filterMap_append, h7, List.append_assoc]
      rfl
    · rw [h4]; exact h.valid
    · rw [h5]; exact h.running
    · rw [h3]; exact h.room
    · rw [h2, h3, h4]
      have := h.bounded
      rw [h1, List.length_cons] at this
      omega

theorem step_inv (be : Bool) (s : State) (done : List (CANFrame × Fate)) (h : Inv be s done) (st : Step) :
    ∃ more, Inv be (step be s st) (done ++ more) := by
  have same : ∀ s', Inv be s' done → ∃ more, Inv be s' (done ++ more) := fun s' h' => ⟨[], by rw [List.append_nil]; exact h'⟩
  cases st with
  | send f =>
    apply same
    have hc := check_inv be s done h
    have hs := check_spec s
    simp only [step, sendFrame]
    generalize hcs : check s = c at hc hs
    obtain ⟨t, b⟩ := c
    dsimp only at hc hs ⊢
    cases b with
    | true => exact hc
    | false =>
      dsimp only
      split
      · rename_i hl
        constructor
        · have : acceptedOf (t.trace ++ [.accepted f]) = acceptedOf t.trace ++ [f] := by simp [acceptedOf]
          rw [this, hc.accepted]
          simp only [List.append_assoc]
        · have : packetsOf (t.trace ++ [.accepted f]) = packetsOf t.trace := by simp [packetsOf]
          rw [this]; exact hc.packets
        · have : reportsOf (t.trace ++ [.accepted f]) = reportsOf t.trace := by simp [reportsOf]
          rw [this]; exact hc.reports
        · exact hc.valid
        · exact hc.running
        · show (t.queue ++ [f]).length ≤ queueSize
          simp only [List.length_append, List.length_singleton]
          omega
        · show t.feedback.length + t.phase.frames.length + (t.queue ++ [f]).length ≤ queueSize + 1
          simp only [List.length_append, List.length_singleton]
          have h1 := phase_one t.phase
          rcases hs with ⟨hf, he⟩ | ⟨r, rest, h1', h2, h3, h4, -⟩
          · injection he with he _
            rw [he, hf]
            rw [he] at h1 hl
            simp only [List.length_nil]
            omega
          · have := h.bounded
            rw [h1', List.length_cons] at this
            rw [h2, h3, h4]
            omega
      · constructor
        · have : acceptedOf (t.trace ++ [.full f]) = acceptedOf t.trace := by simp [acceptedOf]
          rw [this]; exact hc.accepted
        · have : packetsOf (t.trace ++ [.full f]) = packetsOf t.trace := by simp [packetsOf]
          rw [this]; exact hc.packets
        · have : reportsOf (t.trace ++ [.full f]) = reportsOf t.trace := by simp [reportsOf]
          rw [this]; exact hc.reports
        · exact hc.valid
        · exact hc.running
        · exact hc.room
        · exact hc.bounded
  | receive => exact same _ (check_inv be s done h)
  | close =>
    apply same
    exact ⟨h.accepted, h.packets, h.reports, h.valid, (by intro hs; cases hs), h.room, h.bounded⟩
  | take =>
    apply same
    simp only [step]
    split
    · rename_i f rest h1 h2 h3
      constructor
      · show acceptedOf s.trace = done.map Prod.fst ++ [f] ++ rest
        rw [h.accepted, h1, h3]
        simp [Phase.frames]
      · show packetsOf s.trace = sentPackets be done ++ []
        rw [h.packets, h1]
        rfl
      · exact h.reports
      · rintro g (hg | hg)
        · exact h.valid g (.inl hg)
        · cases hg
      · exact h.running
      · have := h.room
        rw [h3, List.length_cons] at this
        show rest.length ≤ queueSize
        omega
      · have := h.bounded
        rw [h1, h3, List.length_cons] at this
        show s.feedback.length + 1 + rest.length ≤ queueSize + 1
        simp only [Phase.frames, List.length_nil] at this
        omega
    · exact h
  | attempt o =>
    simp only [step]
    split
    · rename_i f h1
      have hacc := h.accepted
      have hpk := h.packets
      have hb := h.bounded
      rw [h1] at hacc hpk hb
      simp only [Phase.frames, Phase.packets, List.append_nil, List.length_singleton] at hacc hpk hb
      unfold attempt
      split
      · rename_i hst
        refine ⟨[(f, .forgotten)], ?_, ?_, ?_, ?_, ?_, h.room, ?_⟩
        · show acceptedOf s.trace = _ ++ [] ++ _
          rw [hacc]; simp
        · show packetsOf s.trace = sentPackets be (done ++ [(f, .forgotten)]) ++ []
          rw [hpk]; simp [sentPackets]
        · show reportsOf s.trace ++ s.feedback = Writer.reports (done ++ [(f, .forgotten)])
          rw [h.reports]; simp [Writer.reports, Fate.report]
        · rintro g (hg | hg)
          · rcases List.mem_append.1 hg with hg | hg
            · exact h.valid g (.inl hg)
            · simp at hg
          · cases hg
        · intro hs'
          change s.stop = false at hs'
          rw [hs'] at hst
          cases hst
        · show s.feedback.length + 0 + s.queue.length ≤ _
          omega
      · have failed : ∀ e : Exn, ∃ more, Inv be { s with
            phase := .idle
            feedback := s.feedback ++ [.failed e] } (done ++ more) := by
          intro e
          refine ⟨[(f, .failed e)], ?_, ?_, ?_, ?_, ?_, h.room, ?_⟩
          · show acceptedOf s.trace = _ ++ [] ++ _
            rw [hacc]; simp
          · show packetsOf s.trace = sentPackets be (done ++ [(f, .failed e)]) ++ []
            rw [hpk]; simp [sentPackets]
          · show reportsOf s.trace ++ (s.feedback ++ [.failed e]) = Writer.reports (done ++ [(f, .failed e)])
            rw [← List.append_assoc, h.reports]; simp [Writer.reports, Fate.report]
          · rintro g (hg | hg)
            · rcases List.mem_append.1 hg with hg | hg
              · exact h.valid g (.inl hg)
              · simp at hg
            · cases hg
          · intro hs' x hx
            rcases List.mem_append.1 hx with hx | hx
            · exact h.running hs' x hx
            · rw [List.mem_singleton] at hx
              rw [hx]
              simp
          · show (s.feedback ++ [Report.failed e]).length + 0 + s.queue.length ≤ _
            rw [List.length_append, List.length_singleton]
            omega
        split
        · exact failed _
        · rename_i p hp
          apply same
          constructor
          · have : acceptedOf (s.trace ++ [.packet p]) = acceptedOf s.trace := by simp [acceptedOf]
            rw [this]; exact hacc
          · show packetsOf (s.trace ++ [.packet p]) = sentPackets be done ++ ((Packet.socketPacket be f).toOption).toList
            have : packetsOf (s.trace ++ [.packet p]) = packetsOf s.trace ++ [p] := by simp [packetsOf]
            rw [this, hpk, hp]
            rfl
          · have : reportsOf (s.trace ++ [.packet p]) = reportsOf s.trace := by simp [reportsOf]
            rw [this]; exact h.reports
          · rintro g (hg | hg)
            · exact h.valid g (.inl hg)
            · injection hg with hg
              subst hg
              exact ⟨p, hp⟩
          · exact h.running
          · exact h.room
          · exact hb
        · exact same _ h
        · exact failed _
    · exact same _ h
  | report =>
    simp only [step]
    split
    · rename_i f h1
      obtain ⟨p, hp⟩ := h.valid f (.inr h1)
      have hacc := h.accepted
      have hpk := h.packets
      have hb := h.bounded
      rw [h1] at hacc hpk hb
      simp only [Phase.frames, Phase.packets, List.length_singleton] at hacc hpk hb
      refine ⟨[(f, .sent)], ?_, ?_, ?_, ?_, ?_, h.room, ?_⟩
      · show acceptedOf s.trace = _ ++ [] ++ _
        rw [hacc]; simp
      · show packetsOf s.trace = sentPackets be (done ++ [(f, .sent)]) ++ []
        rw [hpk, hp]
        simp [sentPackets, hp, Except.toOption]
      · show reportsOf s.trace ++ (s.feedback ++ [.sent f]) = Writer.reports (done ++ [(f, .sent)])
        rw [← List.append_assoc, h.reports]; simp [Writer.reports, Fate.report]
      · rintro g (hg | hg)
        · rcases List.mem_append.1 hg with hg | hg
          · exact h.valid g (.inl hg)
          · simp at hg
            subst hg
            exact ⟨p, hp⟩
        · cases hg
      · intro hs' x hx
        rcases List.mem_append.1 hx with hx | hx
        · exact h.running hs' x hx
        · rw [List.mem_singleton] at hx
          rw [hx]
          simp
      · show (s.feedback ++ [Report.sent f]).length + 0 + s.queue.length ≤ _
        rw [List.length_append, List.length_singleton]
        omega
    · exact same _ h

theorem foldl_inv (be : Bool) (steps : List Step) (s : State) (done : List (CANFrame × Fate)) (h : Inv be s done) :
    ∃ more, Inv be (steps.foldl (step be) s) (done ++ more) := by
  induction steps generalizing s done with
  | nil => exact ⟨[], by rw [List.append_nil]; exact h⟩
  | cons st steps ih =>
    obtain ⟨m1, h1⟩ := step_inv be s done h st
    obtain ⟨m2, h2⟩ := ih _ _ h1
    exact ⟨m1 ++ m2, by rw [← List.append_assoc]; exact h2⟩

theorem run_inv (be : Bool) (steps : List Step) : ∃ done, Inv be (run be steps) done := by
  obtain ⟨m, h⟩ := foldl_inv be steps {} [] (Inv.nil be)
  exact ⟨m, h⟩

theorem filterMap_same {α β : Type} {f g : α → Option β} (l : List α) (h : ∀ x ∈ l, f x = g x) : l.filterMap f = l.filterMap g := by
  induction l with
  | nil => rfl
  | cons a l ih =>
    rw [List.filterMap_cons, List.filterMap_cons, h a List.mem_cons_self, ih (fun x hx => h x (List.mem_cons_of_mem _ hx))]

/-! ## Theorems -/

/-- The frames dealt with are a beginning of the frames accepted, in order. The messages on the bus are those of the frames sent, in
order, possibly with one more that is not yet reported; what was reported so far is a beginning of what there is to report, in
order. -/
theorem C88_order (be : Bool) (steps : List Step) : ∃ done : List (CANFrame × Fate),
    done.map Prod.fst <+: acceptedOf (run be steps).trace ∧
    (packetsOf (run be steps).trace = sentPackets be done ∨
      ∃ f p rest, acceptedOf (run be steps).trace = done.map Prod.fst ++ f :: rest ∧ Packet.socketPacket be f = .ok p ∧
        packetsOf (run be steps).trace = sentPackets be done ++ [p]) ∧
    reportsOf (run be steps).trace <+: reports done := by
  obtain ⟨done, h⟩ := run_inv be steps
  refine ⟨done, ⟨(run be steps).phase.frames ++ (run be steps).queue, by rw [h.accepted, List.append_assoc]⟩, ?_, ⟨_, h.reports⟩⟩
  cases hp : (run be steps).phase with
  | idle => left; rw [h.packets, hp]; exact List.append_nil _
  | working f => left; rw [h.packets, hp]; exact List.append_nil _
  | written f =>
    right
    obtain ⟨p, hpk⟩ := h.valid f (.inr hp)
    refine ⟨f, p, (run be steps).queue, ?_, hpk, ?_⟩
    · rw [h.accepted, hp]; simp [Phase.frames]
    · rw [h.packets, hp]; simp [Phase.packets, hpk, Except.toOption]

/-- No frame is sent twice or out of order: the messages on the bus are among those of the accepted frames, in order. -/
theorem C88_bus (be : Bool) (steps : List Step) :
    List.Sublist (packetsOf (run be steps).trace)
      ((acceptedOf (run be steps).trace).filterMap (fun f => (Packet.socketPacket be f).toOption)) := by
  obtain ⟨done, h⟩ := run_inv be steps
  rw [h.accepted, h.packets, List.filterMap_append, List.filterMap_append]
  refine List.Sublist.trans ?_ (List.sublist_append_left _ _)
  refine List.Sublist.append ?_ ?_
  · generalize done = d
    induction d with
    | nil => exact List.Sublist.refl _
    | cons x d ih =>
      obtain ⟨f, t⟩ := x
      simp only [sentPackets, List.map_cons, List.filterMap_cons] at ih ⊢
      by_cases ht : t = .sent
      · simp only [ht, if_true]
        cases (Packet.socketPacket be f).toOption with
        | none => exact ih
        | some p => exact ih.cons_cons p
      · simp only [if_neg ht]
        cases (Packet.socketPacket be f).toOption with
        | none => exact ih
        | some p => exact ih.cons p
  · cases (run be steps).phase with
    | idle => exact List.Sublist.refl _
    | working f => exact List.nil_sublist _
    | written f =>
      simp only [Phase.packets, Phase.frames, List.filterMap_cons, List.filterMap_nil]
      cases (Packet.socketPacket be f).toOption <;> exact List.Sublist.refl _

/-- When the driver is open, the writer thread waits and no report is left, then every accepted frame was either sent and shown to the
hooks, or an exception was raised for it, in order. -/
theorem C88_quiet (be : Bool) (steps : List Step) (h1 : (run be steps).stop = false) (h2 : (run be steps).phase = .idle)
    (h3 : (run be steps).queue = []) (h4 : (run be steps).feedback = []) : ∃ done : List (CANFrame × Fate),
    acceptedOf (run be steps).trace = done.map Prod.fst ∧ (∀ x ∈ done, x.2 ≠ .forgotten) ∧
    packetsOf (run be steps).trace = sentPackets be done ∧ reportsOf (run be steps).trace = reports done := by
  obtain ⟨done, h⟩ := run_inv be steps
  refine ⟨done, ?_, h.running h1, ?_, ?_⟩
  · rw [h.accepted, h2, h3]; simp [Phase.frames]
  · rw [h.packets, h2]; simp [Phase.packets]
  · rw [← h.reports, h4, List.append_nil]

/-- Then, if no exception was raised, all accepted frames were sent, in order. -/
theorem C88_all_sent (be : Bool) (steps : List Step) (h1 : (run be steps).stop = false) (h2 : (run be steps).phase = .idle)
    (h3 : (run be steps).queue = []) (h4 : (run be steps).feedback = []) (h5 : ∀ e, Ev.raised e ∉ (run be steps).trace) :
    packetsOf (run be steps).trace = (acceptedOf (run be steps).trace).filterMap (fun f => (Packet.socketPacket be f).toOption) ∧
    reportsOf (run be steps).trace = (acceptedOf (run be steps).trace).map Report.sent ∧
    ∀ f ∈ acceptedOf (run be steps).trace, ∃ p, Packet.socketPacket be f = .ok p := by
  obtain ⟨done, h⟩ := run_inv be steps
  have hr : reportsOf (run be steps).trace = reports done := by rw [← h.reports, h4, List.append_nil]
  have ha : acceptedOf (run be steps).trace = done.map Prod.fst := by rw [h.accepted, h2, h3]; simp [Phase.frames]
  have hp : packetsOf (run be steps).trace = sentPackets be done := by rw [h.packets, h2]; simp [Phase.packets]
  have hall : ∀ x ∈ done, x.2 = .sent := by
    intro x hx
    obtain ⟨f, t⟩ := x
    cases t with
    | sent => rfl
    | forgotten => exact absurd rfl (h.running h1 _ hx)
    | failed e =>
      exfalso
      have : Report.failed e ∈ reportsOf (run be steps).trace := by
        rw [hr]
        exact List.mem_filterMap.2 ⟨_, hx, rfl⟩
      obtain ⟨ev, hev, he⟩ := List.mem_filterMap.1 this
      cases ev with
      | raised e' =>
        exact h5 e' hev
      | hook f => simp at he
      | accepted f => simp at he
      | full f => simp at he
      | packet p => simp at he
  refine ⟨?_, ?_, ?_⟩
  · rw [hp, ha, List.filterMap_map]
    unfold sentPackets
    apply filterMap_same
    intro x hx
    rw [if_pos (hall x hx)]
    rfl
  · rw [hr, ha, List.map_map, ← List.filterMap_eq_map]
    apply filterMap_same
    intro x hx
    rw [hall x hx]
    rfl
  · intro f hf
    rw [ha] at hf
    obtain ⟨⟨g, t⟩, hx, rfl⟩ := List.mem_map.1 hf
    have := hall _ hx
    dsimp only at this
    subst this
    exact h.valid g (.inl hx)

/-- There are never more than 1001 frames that are accepted and not reported. -/
theorem C88_bounded (be : Bool) (steps : List Step) :
    (run be steps).queue.length ≤ 1000 ∧
    (run be steps).queue.length + (run be steps).phase.frames.length + (run be steps).feedback.length ≤ 1001 := by
  obtain ⟨done, h⟩ := run_inv be steps
  refine ⟨h.room, ?_⟩
  have := h.bounded
  simp only [queueSize] at this
  omega

/-- `send_frame` with the exception of an earlier frame waiting raises it, and the new frame is not accepted. -/
theorem C88_send_raises (be : Bool) (s : State) (f : CANFrame) (e : Exn) (rest : List Report) (h : s.feedback = .failed e :: rest) :
    (step be s (.send f)).trace = s.trace ++ [.raised e] ∧ (step be s (.send f)).queue = s.queue := by
  simp [step, sendFrame, check, h]

/-- Otherwise it accepts the frame if fewer than 1000 are waiting, and refuses it if not. -/
theorem C88_send (be : Bool) (s : State) (f : CANFrame) (h : ∀ e rest, s.feedback ≠ .failed e :: rest) :
    (s.queue.length < 1000 → (step be s (.send f)).queue = s.queue ++ [f] ∧ (step be s (.send f)).trace.getLast? = some (.accepted f)) ∧
    (1000 ≤ s.queue.length → (step be s (.send f)).queue = s.queue ∧ (step be s (.send f)).trace.getLast? = some (.full f)) := by
  have hc : (check s).2 = false ∧ (check s).1.queue = s.queue := by
    rcases check_spec s with ⟨h1, h2⟩ | ⟨r, rest, h1, h2, h3, -, -, -, h4⟩
    · rw [h2]; exact ⟨rfl, rfl⟩
    · refine ⟨?_, h3⟩
      cases hb : (check s).2 with
      | false => rfl
      | true =>
        obtain ⟨e, rfl⟩ := h4.1 hb
        exact absurd h1 (h e rest)
  simp only [step, sendFrame]
  generalize check s = c at hc
  obtain ⟨t, b⟩ := c
  obtain ⟨h1, h2⟩ := hc
  dsimp only at h1 h2
  subst h1
  dsimp only
  rw [h2]
  constructor
  · intro hl
    rw [if_pos (show s.queue.length < queueSize from hl)]
    simp
  · intro hl
    rw [if_neg (show ¬ s.queue.length < queueSize from Nat.not_lt.2 hl)]
    simp [h2]

/-- Calls of `receive` report one item each, so that everything there is to report is reported by as many calls. -/
theorem C88_drain (be : Bool) (n : Nat) (s : State) (h : n = s.feedback.length) :
    let t := (List.replicate n Step.receive).foldl (step be) s
    t.feedback = [] ∧ reportsOf t.trace = reportsOf s.trace ++ s.feedback ∧ t.queue = s.queue ∧ t.phase = s.phase := by
  induction n generalizing s with
  | zero =>
    have : s.feedback = [] := List.eq_nil_of_length_eq_zero h.symm
    simp [this]
  | succ n ih =>
    rcases check_spec s with ⟨h1, -⟩ | ⟨r, rest, h1, h2, h3, h4, -, ⟨e, h6, h7, -, -⟩, -⟩
    · rw [h1] at h; cases h
    · rw [h1, List.length_cons] at h
      obtain ⟨i1, i2, i3, i4⟩ := ih (check s).1 (by rw [h2]; omega)
      rw [List.replicate_succ, List.foldl_cons]
      refine ⟨i1, i2.trans ?_, i3.trans h3, i4.trans h4⟩
      rw [h6, h2, h1]
      unfold reportsOf at h7 ⊢
      rw [List.filterMap_append, h7, List.append_assoc]
      rfl

/-! ## Examples -/

def f1 : CANFrame := ⟨0x123, [1, 2], true, false⟩
def f2 : CANFrame := ⟨0x7, [], false, false⟩

/-- The second frame fails; this is raised by the call that would send another one, which is not accepted. -/
def sample : List Step := [.send f1, .take, .send f2, .attempt .noBufs, .attempt .ok, .report, .take, .attempt (.error 100), .receive, .send f1]

example : (run false sample).trace = [.accepted f1, .accepted f2, .packet [0x23, 0x01, 0, 0x80, 2, 0, 0, 0, 1, 2, 0, 0, 0, 0, 0, 0], .hook f1,
    .raised (.osError 100)] := by decide +kernel

example : (run false sample).stop = false ∧ (run false sample).phase = .idle ∧ (run false sample).queue = [] ∧
    (run false sample).feedback = [] := by decide +kernel

/-- Closing forgets the frames that are waiting. -/
example : (run false [.send f1, .take, .close, .attempt .ok, .take]).trace = [.accepted f1] := by decide +kernel

end Writer
end Dronecan
