import Verif.Model.Tunnel
import Verif.Props.Threads

/-!
# The example that tunnels MAVLink (C150)
-/

namespace Dronecan
namespace Tunnel

/-! ## Specification -/

/-- No client connects. -/
def Quiet (events : List Event) : Prop := ∀ e ∈ events, ∀ c, e ≠ .connect c

/-- No call raises in the thread. -/
def Smooth (events : List Event) : Prop := ∀ e ∈ events, e ≠ .error ∧ ∀ bytes k, e ≠ .data bytes (some k)

/-- What the client sends. -/
def fromClient : List Event → List Byte
  | [] => []
  | .data bytes _ :: rest => bytes ++ fromClient rest
  | _ :: rest => fromClient rest

/-- What is in the messages for this node that can be passed on. -/
def forClient (node : Nat) : List Event → List Byte
  | [] => []
  | .message target buffer true :: rest => if target = node then buffer ++ forClient node rest else forClient node rest
  | _ :: rest => forClient node rest

/-- The bytes written to a client. -/
def writtenTo (c : Nat) (s : State) : List Byte := (s.written.filter (·.1 = c)).flatMap (·.2)

/-! ## Pieces -/

theorem chunks_spec (b : List Byte) : (chunks b).flatten = b ∧ ∀ c ∈ chunks b, c ≠ [] ∧ c.length ≤ 120 := by
  fun_induction chunks b with
  | case1 => simp
  | case2 b h ih =>
    refine ⟨by rw [List.flatten_cons, ih.1, List.take_append_drop], ?_⟩
    intro c hc
    rcases List.mem_cons.1 hc with rfl | hc
    · refine ⟨?_, by rw [List.length_take]; omega⟩
      cases b with
      | nil => exact absurd rfl h
      | cons x b => simp
    · exact ih.2 c hc

/-- Only the last piece is shorter than 120 bytes. -/
theorem chunks_full (b : List Byte) (l : List (List Byte)) (c : List Byte) (r : List (List Byte)) (h : chunks b = l ++ c :: r) (hr : r ≠ []) :
    c.length = 120 := by
  induction l generalizing b with
  | nil =>
    unfold chunks at h
    split at h
    · cases h
    · injection h with h1 h2
      subst h1
      have : b.drop 120 ≠ [] := by
        intro e
        rw [e] at h2
        unfold chunks at h2
        simp at h2
        exact hr h2
      have : b.length > 120 := by
        have := List.length_pos_iff.2 this
        rw [List.length_drop] at this
        omega
      rw [List.length_take]
      omega
  | cons x l ih =>
    unfold chunks at h
    split at h
    · cases h
    · injection h with _ h2
      exact ih _ h2

theorem map_buffer (l : List (List Byte)) : (l.map messageOf).flatMap (·.buffer) = l.flatten := by
  induction l with
  | nil => rfl
  | cons c l ih => simp [ih, messageOf]

theorem run_append (node : Nat) (a b : List Event) : run node (a ++ b) = b.foldl step (run node a) := by
  simp [run, List.foldl_append]

/-! ## C150: both directions -/

theorem quiet_waiting (node : Nat) (events : List Event) (h : Quiet events) : run node events = { node } := by
  show events.foldl step { node } = { node }
  induction events with
  | nil => rfl
  | cons e l ih =>
    have : step { node } e = { node } := by
      cases e with
      | connect c => exact absurd rfl (h _ (by simp) c)
      | data b f => rfl
      | error => rfl
      | message t b w =>
        simp only [step]
        split <;> rfl
    rw [List.foldl_cons, this]
    exact ih (fun x hx => h x (by simp [hx]))

/-- While the client is served. -/
theorem serving (node c : Nat) (after : List Event) (hs : Smooth after) (s : State) (hn : s.node = node) (ht : s.thread = .serving c)
    (hc : s.conn = some (c, true)) :
    (after.foldl step s).accepted = s.accepted ∧ (after.foldl step s).thread = .serving c ∧
    (∃ more, (after.foldl step s).sent = s.sent ++ more ∧ more.flatMap (·.buffer) = fromClient after ∧
      ∀ t ∈ more, ∃ b, t = messageOf b ∧ b ≠ [] ∧ b.length ≤ 120) ∧
    ∃ more, (after.foldl step s).written = s.written ++ more ∧ more.flatMap (·.2) = forClient node after ∧ ∀ x ∈ more, x.1 = c := by
  induction after generalizing s with
  | nil => exact ⟨rfl, ht, ⟨[], by simp [fromClient]⟩, [], by simp [forClient]⟩
  | cons e after ih =>
    have hs' : Smooth after := fun x hx => hs x (by simp [hx])
    obtain ⟨he1, he2⟩ := hs e (by simp)
    rw [List.foldl_cons]
    cases e with
    | connect c' =>
      have : step s (.connect c') = s := by simp [step, ht]
      rw [this]
      exact ih hs' s hn ht hc
    | error => exact absurd rfl he1
    | data b f =>
      cases f with
      | some k => exact absurd rfl (he2 b k)
      | none =>
        have : step s (.data b none) = { s with sent := s.sent ++ (chunks b).map messageOf } := by simp [step, ht]
        rw [this]
        obtain ⟨g1, g2, ⟨m1, g3, g4, g5⟩, g6⟩ := ih hs' { s with sent := s.sent ++ (chunks b).map messageOf } hn ht hc
        refine ⟨g1, g2, ⟨(chunks b).map messageOf ++ m1, by rw [g3]; simp, ?_, ?_⟩, g6⟩
        · rw [List.flatMap_append, map_buffer, (chunks_spec b).1, g4]
          rfl
        · intro t ht
          rcases List.mem_append.1 ht with ht | ht
          · obtain ⟨x, hx, rfl⟩ := List.mem_map.1 ht
            exact ⟨x, rfl, (chunks_spec b).2 x hx⟩
          · exact g5 t ht
    | message t b w =>
      by_cases hcond : t = s.node ∧ b ≠ []
      · cases w with
        | false =>
          have : step s (.message t b false) = s := by simp [step, hcond, hc]
          rw [this]
          exact ih hs' s hn ht hc
        | true =>
          have : step s (.message t b true) = { s with written := s.written ++ [(c, b)] } := by simp [step, hcond, hc]
          rw [this]
          obtain ⟨g1, g2, g3, m, g4, g5, g6⟩ := ih hs' { s with written := s.written ++ [(c, b)] } hn ht hc
          refine ⟨g1, g2, g3, (c, b) :: m, by rw [g4]; simp, ?_, ?_⟩
          · rw [List.flatMap_cons, g5, forClient, if_pos (hcond.1.trans hn)]
          · intro x hx
            rcases List.mem_cons.1 hx with rfl | hx
            · rfl
            · exact g6 x hx
      · have : step s (.message t b w) = s := by simp only [step, if_neg hcond]
        rw [this]
        obtain ⟨g1, g2, g3, m, g4, g5, g6⟩ := ih hs' s hn ht hc
        refine ⟨g1, g2, g3, m, g4, ?_, g6⟩
        rw [g5]
        cases w with
        | false => rfl
        | true =>
          simp only [forClient]
          split
          · rename_i e
            have : b = [] := Decidable.byContradiction fun hb => hcond ⟨e.trans hn.symm, hb⟩
            rw [this]
            rfl
          · rfl

/-- **C150**: the first client that connects is served. While nothing raises, what it sends is broadcast completely and in order, in messages of 1 to 120
bytes for node 10; what is in the messages for this node is written to it, in order. -/
theorem C150_served (node c : Nat) (before after : List Event) (hq : Quiet before) (hs : Smooth after) :
    let s := run node (before ++ .connect c :: after)
    s.accepted = [c] ∧
    s.sent.flatMap (·.buffer) = fromClient after ∧
    (∀ t ∈ s.sent, t.buffer ≠ [] ∧ t.buffer.length ≤ 120 ∧ t.targetNode = 10 ∧ t.serialId = 1 ∧ t.protocol = 1 ∧ t.baudrate = 115200 ∧ t.options = 1) ∧
    writtenTo c s = forClient node after ∧ ∀ x ∈ s.written, x.1 = c := by
  intro s
  have hrun : s = after.foldl step { node, thread := .serving c, conn := some (c, true), accepted := [c] } := by
    show run node (before ++ .connect c :: after) = _
    rw [run_append, quiet_waiting node before hq]
    rfl
  obtain ⟨g1, -, ⟨m, g3, g4, g5⟩, w, g6, g7, g8⟩ :=
    serving node c after hs { node, thread := .serving c, conn := some (c, true), accepted := [c] } rfl rfl rfl
  rw [← hrun] at g1 g3 g6
  simp only [List.nil_append] at g3 g6
  refine ⟨g1, by rw [g3, g4], ?_, ?_, by rw [g6]; exact g8⟩
  · intro t ht
    rw [g3] at ht
    obtain ⟨b, rfl, h1, h2⟩ := g5 t ht
    exact ⟨h1, h2, rfl, rfl, rfl, rfl, rfl⟩
  · rw [writtenTo, g6, List.filter_eq_self.2 (fun x hx => by simpa using g8 x hx), g7]

theorem ended (events : List Event) (s : State) (ht : s.thread = .ended) (hc : ∀ c, s.conn ≠ some (c, true)) : events.foldl step s = s := by
  induction events with
  | nil => rfl
  | cons e events ih =>
    have : step s e = s := by
      cases e with
      | connect c => simp [step, ht]
      | data b f => simp [step, ht]
      | error => simp [step, ht]
      | message t b w =>
        unfold step
        by_cases h : t = s.node ∧ b ≠ []
        · simp only [if_pos h]
        · simp only [if_neg h]
    rw [List.foldl_cons, this]
    exact ih

theorem finish_ended (s : State) : (finish s).thread = .ended ∧ ∀ c, (finish s).conn ≠ some (c, true) := by
  refine ⟨rfl, fun c h => ?_⟩
  simp only [finish] at h
  cases hc : s.conn with
  | none => rw [hc] at h; cases h
  | some x => rw [hc] at h; cases h

/-- **C150**, whatever raises: what has been broadcast is a beginning of what the client has sent. -/
theorem C150_prefix (node c : Nat) (before after : List Event) (hq : Quiet before) :
    ∃ lost, fromClient after = (run node (before ++ .connect c :: after)).sent.flatMap (·.buffer) ++ lost := by
  have go : ∀ (l : List Event) (s : State), (∃ c, s.thread = .serving c) →
      ∃ more lost, (l.foldl step s).sent = s.sent ++ more ∧ fromClient l = more.flatMap (·.buffer) ++ lost := by
    intro l
    induction l with
    | nil => exact fun s _ => ⟨[], [], by simp, rfl⟩
    | cons e l ih =>
      intro s ⟨c, ht⟩
      rw [List.foldl_cons]
      have same : ∀ s' : State, s'.thread = s.thread → s'.sent = s.sent →
          ∃ more lost, (l.foldl step s').sent = s.sent ++ more ∧ fromClient l = more.flatMap (·.buffer) ++ lost := by
        intro s' h1 h2
        rw [← h2]
        exact ih s' ⟨c, h1.trans ht⟩
      have whole : ∀ b f, ∃ more lost, (l.foldl step { s with sent := s.sent ++ (chunks b).map messageOf }).sent = s.sent ++ more ∧
          fromClient (.data b f :: l) = more.flatMap (·.buffer) ++ lost := by
        intro b f
        obtain ⟨more, lost, h1, h2⟩ := ih { s with sent := s.sent ++ (chunks b).map messageOf } ⟨c, ht⟩
        refine ⟨(chunks b).map messageOf ++ more, lost, by rw [h1]; simp, ?_⟩
        rw [List.flatMap_append, map_buffer, (chunks_spec b).1, fromClient, h2, List.append_assoc]
      cases e with
      | connect c' =>
        rw [show step s (.connect c') = s by simp [step, ht]]
        exact same s rfl rfl
      | error =>
        rw [show step s .error = finish s by simp [step, ht], ended l _ (finish_ended s).1 (finish_ended s).2]
        exact ⟨[], fromClient l, by simp [finish], rfl⟩
      | message t b w =>
        refine same _ ?_ ?_ <;> (simp only [step]; (repeat' split) <;> rfl)
      | data b f =>
        cases f with
        | none =>
          rw [show step s (.data b none) = { s with sent := s.sent ++ (chunks b).map messageOf } by simp [step, ht]]
          exact whole b none
        | some k =>
          by_cases hk : k < (chunks b).length
          · rw [show step s (.data b (some k)) = finish { s with sent := s.sent ++ ((chunks b).take k).map messageOf } by simp [step, ht, hk],
              ended l _ (finish_ended _).1 (finish_ended _).2]
            refine ⟨((chunks b).take k).map messageOf, ((chunks b).drop k).flatten ++ fromClient l, rfl, ?_⟩
            rw [map_buffer, fromClient, ← List.append_assoc, ← List.flatten_append, List.take_append_drop, (chunks_spec b).1]
          · rw [show step s (.data b (some k)) = { s with sent := s.sent ++ (chunks b).map messageOf } by simp [step, ht, hk]]
            exact whole b (some k)
  have hrun : run node (before ++ .connect c :: after) =
      after.foldl step { node, thread := .serving c, conn := some (c, true), accepted := [c] } := by
    rw [run_append, quiet_waiting node before hq]
    rfl
  obtain ⟨more, lost, h1, h2⟩ := go after { node, thread := .serving c, conn := some (c, true), accepted := [c] } ⟨c, rfl⟩
  rw [hrun, h1]
  exact ⟨lost, h2⟩

/-- **C150**: when `recv` or `broadcast` raises while a client is served, that is the end: nothing is broadcast or written any more, whatever happens. -/
theorem C150_end (node c : Nat) (before rest : List Event) (e : Event) (hc : (run node before).thread = .serving c)
    (he : e = .error ∨ ∃ b k, e = .data b (some k) ∧ k < (chunks b).length) :
    run node (before ++ e :: rest) = run node (before ++ [e]) ∧ (run node (before ++ [e])).thread = .ended := by
  rw [run_append, run_append]
  simp only [List.foldl_cons, List.foldl_nil]
  generalize run node before = s at hc
  have : ∃ s', step s e = finish s' := by
    rcases he with rfl | ⟨b, k, rfl, hk⟩
    · exact ⟨s, by simp [step, hc]⟩
    · exact ⟨{ s with sent := s.sent ++ ((chunks b).take k).map messageOf }, by simp [step, hc, hk]⟩
  obtain ⟨s', hs'⟩ := this
  rw [hs']
  exact ⟨ended rest _ (finish_ended s').1 (finish_ended s').2, rfl⟩

/-- **C150**: of the messages for what one `recv` returned, only the last has less than 120 bytes. -/
theorem C150_pieces (node c : Nat) (before : List Event) (b : List Byte) (hc : (run node before).thread = .serving c) :
    ∃ more, (run node (before ++ [.data b none])).sent = (run node before).sent ++ more ∧ more.flatMap (·.buffer) = b ∧
      ∀ l t r, more = l ++ t :: r → r ≠ [] → t.buffer.length = 120 := by
  refine ⟨(chunks b).map messageOf, ?_, by rw [map_buffer, (chunks_spec b).1], ?_⟩
  · rw [run_append]
    simp [step, hc]
  · intro l t r h hr
    obtain ⟨l', x, h1, h2, h3⟩ := List.map_eq_append_iff.1 h
    obtain ⟨y, r', h4, h5, h6⟩ := List.map_eq_cons_iff.1 h3
    subst h4 h5
    refine chunks_full b l' y r' h1 ?_
    rintro rfl
    exact hr h6.symm

/-! ## C150: on the bus -/

/-- The program of the node: one thread broadcasts the status, the other what comes from the client. -/
def threads (status : List Threads.Msg) (enc : Targetted → Threads.Msg) (s : State) : Nat → List Threads.Msg
  | 0 => status
  | 1 => s.sent.map enc
  | _ => []

/-- **C150** with **C149**: the data arrives although two threads use the node: in every schedule, every message of which the broadcast has returned
can be received, and when the thread has broadcast everything, the messages are those of the data that the client sent. `enc` is the encoding of the
messages. -/
theorem C150_arrives (node c : Nat) (before after : List Event) (hq : Quiet before) (hs : Smooth after) (status : List Threads.Msg)
    (enc : Targetted → Threads.Msg) (typeId : Nat) (hid : ∀ t, (enc t).dt.dtid = typeId) (hother : ∀ m ∈ status, m.dt.dtid ≠ typeId)
    (hok : ∀ t, t.buffer.length ≤ 120 → t.targetNode = 10 → Threads.Ok node (enc t)) (hst : ∀ m ∈ status, Threads.Ok node m)
    (schedule : List Nat) (db : Registry) :
    let prog := threads status enc (run node (before ++ .connect c :: after))
    let n := Threads.run node prog schedule
    (∀ d ∈ n.returned, db d.msg.dt.dtid false = some d.msg.dt → Threads.Arrives db node (n.bus.map (·.2)) d) ∧
    ((n.threads 1).phase = .idle → (n.threads 1).todo = [] →
      ∃ ts : List Targetted, (n.returned.filter (·.thread = 1)).map (·.msg) = ts.map enc ∧ ts.flatMap (·.buffer) = fromClient after) := by
  intro prog n
  obtain ⟨-, h2, h3, -⟩ := C150_served node c before after hq hs
  have ok : ∀ i, ∀ m ∈ prog i, Threads.Ok node m := by
    intro i m hm
    match i, hm with
    | 0, hm => exact hst m hm
    | 1, hm =>
      obtain ⟨t, ht, rfl⟩ := List.mem_map.1 hm
      exact hok t (h3 t ht).2.1 (h3 t ht).2.2.1
    | _ + 2, hm => cases hm
  have sep : Threads.Separate prog := by
    intro i j m hm m' hm' e
    match i, j, hm, hm' with
    | 0, 0, _, _ => rfl
    | 1, 1, _, _ => rfl
    | 0, 1, hm, hm' =>
      obtain ⟨t, ht, rfl⟩ := List.mem_map.1 hm'
      exact absurd (e.trans (hid t)) (hother m hm)
    | 1, 0, hm, hm' =>
      obtain ⟨t, ht, rfl⟩ := List.mem_map.1 hm
      exact absurd (e.symm.trans (hid t)) (hother m' hm')
    | _ + 2, _, hm, _ => cases hm
    | _, _ + 2, _, hm' => cases hm'
  refine ⟨fun d hd => (Threads.C149_partial node prog schedule db ok sep d hd).1, fun h4 h5 => ?_⟩
  exact ⟨_, ((Threads.C149_order_partial node prog schedule ok sep 1).2.1 h4 h5).symm, h2⟩

/-! ## C150: other clients -/

/-- **C150**, the whole: a client that connects after the one before has closed the connection is accepted. -/
def C150_statement : Prop :=
  ∀ (node : Nat) (before after : List Event) (c c' : Nat), Quiet before → Quiet after → Smooth after →
    c' ∈ (run node (before ++ .connect c :: after ++ [.data [] none, .connect c'])).accepted

theorem not_waiting (events : List Event) (s : State) (h : s.thread ≠ .waiting) :
    (events.foldl step s).thread ≠ .waiting ∧ (events.foldl step s).accepted = s.accepted := by
  induction events generalizing s with
  | nil => exact ⟨h, rfl⟩
  | cons e events ih =>
    rw [List.foldl_cons]
    have key : (step s e).thread ≠ .waiting ∧ (step s e).accepted = s.accepted := by
      cases e with
      | connect c => rw [show step s (.connect c) = s by simp [step, h]]; exact ⟨h, rfl⟩
      | data b f =>
        simp only [step]
        split
        · split
          · exact ⟨h, rfl⟩
          · split
            · exact ⟨(fun e => nomatch e), rfl⟩
            · exact ⟨h, rfl⟩
        · exact ⟨h, rfl⟩
      | error =>
        simp only [step]
        split
        · exact ⟨(fun e => nomatch e), rfl⟩
        · exact ⟨h, rfl⟩
      | message t b w =>
        simp only [step]
        (repeat' split) <;> exact ⟨h, rfl⟩
    rw [← key.2]
    exact ih _ key.1

/-- Only the first client that connects is ever accepted: the thread does not notice that a client has gone, and an exception ends it. -/
theorem C150_first_only (node : Nat) (events : List Event) :
    (run node events).accepted = ((events.filterMap fun | .connect c => some c | _ => none).take 1) := by
  have go : ∀ (l : List Event) (s : State), s.thread = .waiting → s.accepted = [] →
      (l.foldl step s).accepted = ((l.filterMap fun | .connect c => some c | _ => none).take 1) := by
    intro l
    induction l with
    | nil => exact fun s _ h => h
    | cons e l ih =>
      intro s ht ha
      rw [List.foldl_cons]
      cases e with
      | connect c =>
        have : step s (.connect c) = { s with thread := .serving c, conn := some (c, true), accepted := s.accepted ++ [c] } := by simp [step, ht]
        rw [this, (not_waiting l _ (by simp)).2, ha]
        simp
      | data b f =>
        have : step s (.data b f) = s := by simp [step, ht]
        rw [this]
        exact ih s ht ha
      | error =>
        have : step s .error = s := by simp [step, ht]
        rw [this]
        exact ih s ht ha
      | message t b w =>
        have : (step s (.message t b w)).thread = s.thread ∧ (step s (.message t b w)).accepted = s.accepted := by
          simp only [step]
          (repeat' split) <;> exact ⟨rfl, rfl⟩
        exact ih _ (this.1.trans ht) (this.2.trans ha)
  exact go events { node } rfl rfl

theorem C150_counterexample : ¬ C150_statement := by
  intro h
  have := h 100 [] [] 0 1 (by simp [Quiet]) (by simp [Quiet]) (by simp [Smooth])
  rw [C150_first_only] at this
  simp at this

/-! ## Not vacuous -/

/-- A client sends 130 bytes in two parts, and gets three from another node. -/
def sample : List Event :=
  [.message 100 [9] true, .connect 5, .data (List.replicate 125 1) none, .message 100 [1, 2] true, .message 7 [4] true, .message 100 [3] true,
    .data (List.replicate 5 2) none]

example : (run 100 sample).accepted = [5] ∧ (run 100 sample).sent.map (·.buffer.length) = [120, 5, 5] ∧
    writtenTo 5 (run 100 sample) = [1, 2, 3] := by decide +kernel

example : Quiet (sample.take 1) ∧ Smooth (sample.drop 2) := by
  refine ⟨?_, ?_⟩
  · intro e he c
    simp only [sample, List.take_succ_cons, List.take_zero, List.mem_singleton] at he
    subst he
    exact (fun h => nomatch h)
  · intro e he
    simp only [sample, List.drop_succ_cons, List.drop_zero, List.mem_cons, List.not_mem_nil, or_false] at he
    rcases he with rfl | rfl | rfl | rfl | rfl <;> exact ⟨(fun h => nomatch h), fun _ _ h => nomatch h⟩

example : (run 100 (sample ++ [.error, .data [1] none, .connect 6, .message 100 [4] true])).thread = .ended := by decide +kernel

/-- The type of the messages: protocol, target node, serial port, options, baud rate, data. -/
def targettedType : DataType :=
  { dtid := 3001, baseCrc := 0x1234
    msg := .comp false [.prim ⟨.unsigned, 8, true⟩, .prim ⟨.unsigned, 7, true⟩, .prim ⟨.signed, 5, true⟩, .prim ⟨.unsigned, 3, true⟩,
      .prim ⟨.unsigned, 24, true⟩, .arr (.prim ⟨.unsigned, 8, true⟩) true 120] }

/-- The bits of a byte. -/
def bitsOf (b : Byte) : Bits := (List.range 8).map fun i => b.getLsbD (7 - i)

/-- An encoding of the messages, for the fields that the program varies. -/
def encode (t : Targetted) : Threads.Msg :=
  { dt := targettedType
    val := .comp none [.prim (List.replicate 8 true), .prim (List.replicate 7 true), .prim (List.replicate 5 true), .prim (List.replicate 3 true),
      .prim (List.replicate 24 true), .arr (t.buffer.map fun b => .prim (bitsOf b))] }

theorem encode_ok (t : Targetted) : Threads.Ok 100 (encode t) where
  dtid := by show 3001 < 65536; decide
  prio := by show (20 : Nat) < 32; decide
  src1 := by decide
  src2 := by decide
  wf := by show WfTy targettedType.msg = true; decide +kernel
  ty := by
    show hasTy targettedType.msg _ = true
    simp [targettedType, encode, hasTy, hasTys, bitsOf]

/-- The hypotheses of `C150_arrives` can be met. -/
example : (∀ t, (encode t).dt.dtid = 3001) ∧ (∀ m ∈ [Threads.msg 341 true, Threads.msg 341 false], m.dt.dtid ≠ 3001) ∧
    (∀ t : Targetted, t.buffer.length ≤ 120 → t.targetNode = 10 → Threads.Ok 100 (encode t)) ∧
    (∀ m ∈ [Threads.msg 341 true, Threads.msg 341 false], Threads.Ok 100 m) := by
  refine ⟨fun _ => rfl, ?_, fun t _ _ => encode_ok t, ?_⟩
  · intro m hm
    simp only [List.mem_cons, List.not_mem_nil, or_false] at hm
    rcases hm with rfl | rfl <;> exact (fun h => nomatch h)
  · intro m hm
    simp only [List.mem_cons, List.not_mem_nil, or_false] at hm
    rcases hm with rfl | rfl <;> exact Threads.msg_ok 341 (by decide) _

end Tunnel
end Dronecan
