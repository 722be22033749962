import Verif.Model.SlcanInit

/-!
# The initialisation of the SLCAN adapter (C102) and the port that is reopened (C103)
-/

namespace Dronecan
namespace SlcanInit
open Slcan PyM

/-! ## Specification -/

/-- The channel is open at the bit rate. -/
def Ready (rate : Int) (p : Port) : Prop := p.isOpen = true ∧ ∃ r : Nat, p.speed = some r ∧ (r : Int) = rate

/-- C102 in full: if the initialisation of the adapter succeeds, its channel is open at the bit rate requested. -/
def C102_statement : Prop :=
  ∀ (env : Env) (fuel : Nat) (bitrate : Option Int) (p p' : Port),
    initAdapter env (rawOps env) fuel bitrate p = (.ok (), p') → Ready (bitrate.getD 1000000) p'

/-- What the adapter sends arrives before the next operation. -/
def Prompt (env : Env) : Prop := ∀ t, env.arrive t = none

/-- The adapter does not send ACK or NACK of its own accord; in particular, it sends no frames. -/
def Quiet (env : Env) : Prop := ∀ t o, CR ∉ env.chatter t o ∧ NACK ∉ env.chatter t o

/-! ## Proofs -/

/-- ACK or NACK. -/
def isSig (b : Byte) : Bool := b == CR || b == NACK

/-- The answers of the adapter that have arrived and not been read. -/
def sigs (p : Port) : List Byte := p.buf.filter isSig

theorem quiet_filter {env : Env} (h : Quiet env) (t : Nat) (o : Bool) : (env.chatter t o).filter isSig = [] := by
  rw [List.filter_eq_nil_iff]
  intro b hb hs
  simp only [isSig, Bool.or_eq_true, beq_iff_eq] at hs
  rcases hs with rfl | rfl
  · exact (h t o).1 hb
  · exact (h t o).2 hb

/-- The adapter's part of the state. -/
structure SameAdapter (p p' : Port) : Prop where
  inbuf : p'.inbuf = p.inbuf
  isOpen : p'.isOpen = p.isOpen
  speed : p'.speed = p.speed
  lines : p'.lines = p.lines
  inits : p'.inits = p.inits
  connected : p'.connected = p.connected

theorem SameAdapter.refl (p : Port) : SameAdapter p p := ⟨rfl, rfl, rfl, rfl, rfl, rfl⟩

theorem SameAdapter.trans {a b c : Port} (h : SameAdapter a b) (h' : SameAdapter b c) : SameAdapter a c :=
  ⟨h'.inbuf.trans h.inbuf, h'.isOpen.trans h.isOpen, h'.speed.trans h.speed, h'.lines.trans h.lines, h'.inits.trans h.inits,
    h'.connected.trans h.connected⟩

theorem advance_same (env : Env) (p : Port) : SameAdapter p (advance env p) := ⟨rfl, rfl, rfl, rfl, rfl, rfl⟩

theorem advance_owed {env : Env} (hp : Prompt env) (p : Port) : (advance env p).owed = [] := by
  simp [advance, hp p.tick]

theorem advance_sigs {env : Env} (hp : Prompt env) (hq : Quiet env) (p : Port) : sigs (advance env p) = sigs p ++ p.owed.filter isSig := by
  have h : (p.owed ++ env.chatter p.tick p.isOpen).take (p.owed ++ env.chatter p.tick p.isOpen).length =
      p.owed ++ env.chatter p.tick p.isOpen := List.take_length
  simp only [advance, hp p.tick, sigs, Option.getD_none, h, List.filter_append, quiet_filter hq, List.append_nil]

theorem read_same (env : Env) (p : Port) : SameAdapter p ((rawOps env).read p).2 := by
  simp only [rawOps, mayFail]
  split
  · exact advance_same env p
  · split
    · exact advance_same env p
    · exact (advance_same env p).trans ⟨rfl, rfl, rfl, rfl, rfl, rfl⟩

theorem waitForAck_same (env : Env) (n : Nat) : ∀ p : Port, SameAdapter p (waitForAck (rawOps env) n p).2 := by
  induction n with
  | zero => exact fun p => .refl p
  | succ n ih =>
    intro p
    have h := read_same env p
    simp only [waitForAck, bind_run]
    split
    · rename_i r p1 heq
      rw [heq] at h
      cases r with
      | none => exact h
      | some b =>
        simp only
        split
        · exact h
        · split
          · exact h
          · exact h.trans (ih p1)
    · rename_i e p1 heq
      rw [heq] at h
      exact h

theorem waitForAny_same (env : Env) (n : Nat) (p : Port) : SameAdapter p (waitForAny (rawOps env) n p).2 := by
  have h := waitForAck_same env n p
  simp only [waitForAny, PyM.tryCatch]
  split
  · rename_i heq; rw [heq] at h; exact h
  · rename_i heq
    rw [heq] at h
    split <;> exact h

/-- Waiting for an answer: it succeeds only by reading an ACK; a driver error comes from reading a NACK, or from having read everything. -/
theorem waitForAck_sigs {env : Env} (hp : Prompt env) (hq : Quiet env) (n : Nat) : ∀ (p p' : Port) (r : Except Err Unit),
    p.owed = [] → waitForAck (rawOps env) n p = (r, p') → p'.owed = [] ∧
      (r = .ok () → sigs p = CR :: sigs p') ∧ (r = .error .driverError → sigs p = NACK :: sigs p' ∨ (sigs p = [] ∧ sigs p' = [])) := by
  induction n with
  | zero =>
    intro p p' r ho h
    simp only [waitForAck, raise, Prod.mk.injEq] at h
    obtain ⟨rfl, rfl⟩ := h
    exact ⟨ho, fun h => (nomatch h), fun h => (nomatch h)⟩
  | succ n ih =>
    intro p p' r ho h
    have hs : sigs (advance env p) = sigs p := by rw [advance_sigs hp hq, ho]; simp
    have ho' := advance_owed hp p
    simp only [waitForAck, bind_run, rawOps, mayFail] at h
    split at h
    · rename_i x p1 heq
      split at heq
      · cases heq
      · split at heq
        · rename_i hb
          cases heq
          simp only [raise, Prod.mk.injEq] at h
          obtain ⟨rfl, rfl⟩ := h
          have : sigs (advance env p) = [] := by simp [sigs, hb]
          exact ⟨ho', fun h => (nomatch h), fun _ => .inr ⟨hs ▸ this, this⟩⟩
        · rename_i b rest hb
          cases heq
          simp only at h
          have hsb : sigs (advance env p) = (if isSig b then [b] else []) ++ rest.filter isSig := by
            simp only [sigs, hb, List.filter_cons]
            split <;> rfl
          split at h
          · rename_i hn
            simp only [raise, Prod.mk.injEq] at h
            obtain ⟨rfl, rfl⟩ := h
            refine ⟨ho', fun h => (nomatch h), fun _ => .inl ?_⟩
            rw [← hs, hsb, hn]
            rfl
          · split at h
            · rename_i hn hc
              simp only [PyM.pure, Prod.mk.injEq] at h
              obtain ⟨rfl, rfl⟩ := h
              refine ⟨ho', fun _ => ?_, fun h => (nomatch h)⟩
              rw [← hs, hsb, hc]
              rfl
            · rename_i hn hc
              have hns : isSig b = false := by simp [isSig, hn, hc]
              have e : sigs { advance env p with buf := rest } = sigs p := by
                rw [← hs, hsb, hns]
                rfl
              have := ih { advance env p with buf := rest } p' r ho' h
              rw [e] at this
              exact this
    · rename_i e p1 heq
      split at heq
      · cases heq
        simp only [Prod.mk.injEq] at h
        obtain ⟨rfl, rfl⟩ := h
        exact ⟨ho', fun h => (nomatch h), fun h => (nomatch h)⟩
      · split at heq <;> cases heq

/-- If there is at most one answer, nothing is left after waiting for it. -/
theorem waitForAny_sigs {env : Env} (hp : Prompt env) (hq : Quiet env) (n : Nat) (p p' : Port) (ho : p.owed = []) (hl : (sigs p).length ≤ 1)
    (h : waitForAny (rawOps env) n p = (.ok (), p')) : p'.owed = [] ∧ sigs p' = [] := by
  simp only [waitForAny, PyM.tryCatch] at h
  split at h
  · rename_i u p1 heq
    cases h
    obtain ⟨h1, h2, -⟩ := waitForAck_sigs hp hq n p p' _ ho heq
    rw [h2 rfl] at hl
    exact ⟨h1, List.length_eq_zero_iff.1 (by simpa using hl)⟩
  · rename_i e p1 heq
    split at h
    · rename_i he
      cases h
      subst he
      obtain ⟨h1, -, h3⟩ := waitForAck_sigs hp hq n p p' _ ho heq
      refine ⟨h1, ?_⟩
      rcases h3 rfl with h3 | h3
      · rw [h3] at hl
        exact List.length_eq_zero_iff.1 (by simpa using hl)
      · exact h3.2
    · cases h

theorem feed_plain (env : Env) (cmd : List Byte) (h : CR ∉ cmd) : ∀ p : Port,
    feed env (cmd ++ [CR]) p = command env (p.inbuf ++ cmd) { p with inbuf := [] } := by
  induction cmd with
  | nil => intro p; simp [feed]
  | cons c cs ih =>
    intro p
    have hc : c ≠ CR := fun e => h (by simp [e])
    simp only [List.cons_append, feed, if_neg hc]
    rw [ih fun hm => h (by simp [hm])]
    simp

theorem obey_eq (cmd : List Byte) (p : Port) : obey cmd p = { p with
    isOpen := (obey cmd p).isOpen
    speed := (obey cmd p).speed } := by
  unfold obey
  repeat' split
  all_goals rfl

theorem obey_congr (cmd : List Byte) (p q : Port) (h1 : q.isOpen = p.isOpen) (h2 : q.speed = p.speed) :
    (obey cmd q).isOpen = (obey cmd p).isOpen ∧ (obey cmd q).speed = (obey cmd p).speed := by
  unfold obey
  repeat' split
  all_goals first | exact ⟨h1, h2⟩ | exact ⟨rfl, h2⟩ | exact ⟨h1, rfl⟩

/-- After a command has been got, its answer is the last of those to be read. -/
theorem command_spec (env : Env) (cmd : List Byte) (p : Port) :
    (command env cmd p).inbuf = p.inbuf ∧ (command env cmd p).buf = p.buf ∧ (command env cmd p).owed = p.owed ++ (match env.react p.tick cmd with
      | .ack => [CR]
      | .nack => [NACK]
      | .mute _ => []) ∧
    (command env cmd p).isOpen = (match env.react p.tick cmd with
      | .ack | .mute true => (obey cmd p).isOpen
      | _ => p.isOpen) ∧
    (command env cmd p).speed = (match env.react p.tick cmd with
      | .ack | .mute true => (obey cmd p).speed
      | _ => p.speed) ∧ (command env cmd p).inits = p.inits ∧ (command env cmd p).connected = p.connected ∧
    (command env cmd p).lines = p.lines ++ [(cmd, p.isOpen, p.speed)] ∧ (command env cmd p).tick = p.tick := by
  unfold command
  simp only
  have o1 := obey_congr cmd p { p with lines := p.lines ++ [(cmd, p.isOpen, p.speed)], owed := p.owed ++ [CR] } rfl rfl
  have o2 := obey_congr cmd p { p with lines := p.lines ++ [(cmd, p.isOpen, p.speed)] } rfl rfl
  have e1 := obey_eq cmd { p with lines := p.lines ++ [(cmd, p.isOpen, p.speed)], owed := p.owed ++ [CR] }
  have e2 := obey_eq cmd { p with lines := p.lines ++ [(cmd, p.isOpen, p.speed)] }
  split <;> rename_i hr <;> rw [hr]
  · rw [e1]; exact ⟨rfl, rfl, rfl, o1.1, o1.2, rfl, rfl, rfl, rfl⟩
  · exact ⟨rfl, rfl, rfl, rfl, rfl, rfl, rfl, rfl, rfl⟩
  · rw [e2]; exact ⟨rfl, rfl, by simp, o2.1, o2.2, rfl, rfl, rfl, rfl⟩
  · exact ⟨rfl, rfl, by simp, rfl, rfl, rfl, rfl, rfl, rfl⟩

/-- After a command has been written, its answer is the last of those to be read. -/
theorem write_spec {env : Env} (hp : Prompt env) (hq : Quiet env) (cmd : List Byte) (hc : CR ∉ cmd) (p p' : Port)
    (h : sendCommand (rawOps env) cmd p = (.ok (), p')) :
    p'.inbuf = [] ∧ p'.owed = [] ∧ sigs p' = sigs p ++ p.owed.filter isSig ++ (match env.react (p.tick + 1) (p.inbuf ++ cmd) with
      | .ack => [CR]
      | .nack => [NACK]
      | .mute _ => []) ∧
    p'.isOpen = (match env.react (p.tick + 1) (p.inbuf ++ cmd) with
      | .ack | .mute true => (obey (p.inbuf ++ cmd) p).isOpen
      | _ => p.isOpen) ∧
    p'.speed = (match env.react (p.tick + 1) (p.inbuf ++ cmd) with
      | .ack | .mute true => (obey (p.inbuf ++ cmd) p).speed
      | _ => p.speed) ∧ p'.inits = p.inits ∧ p'.connected = p.connected := by
  simp only [sendCommand, rawOps] at h
  split at h
  · cases h
  · split at h
    · cases h
    · cases h
      rw [feed_plain env cmd hc]
      have hs := advance_sigs hp hq p
      have ho := advance_owed hp p
      obtain ⟨c1, c2, c3, c4, c5, c6, c7, -, -⟩ := command_spec env (p.inbuf ++ cmd) { advance env p with inbuf := [] }
      obtain ⟨b1, b2⟩ := obey_congr (p.inbuf ++ cmd) p { advance env p with inbuf := [] } rfl rfl
      have ha := advance_same env (command env ((advance env p).inbuf ++ cmd) { advance env p with inbuf := [] })
      refine ⟨ha.inbuf.trans c1, advance_owed hp _, ?_, ha.isOpen.trans ?_, ha.speed.trans ?_, ha.inits.trans c6, ha.connected.trans c7⟩
      · rw [advance_sigs hp hq]
        show sigs (command env (p.inbuf ++ cmd) { advance env p with inbuf := [] }) ++ _ = _
        have hb : sigs (command env (p.inbuf ++ cmd) { advance env p with inbuf := [] }) = sigs (advance env p) := by
          unfold sigs
          rw [c2]
        rw [hb, hs]
        show _ ++ List.filter isSig (command env (p.inbuf ++ cmd) { advance env p with inbuf := [] }).owed = _
        rw [c3]
        show _ ++ List.filter isSig ((advance env p).owed ++ _) = _
        rw [ho]
        have ht : ({ advance env p with inbuf := [] } : Port).tick = p.tick + 1 := rfl
        rw [ht]
        cases env.react (p.tick + 1) (p.inbuf ++ cmd) <;> simp [isSig]
      · rw [b1] at c4
        exact c4
      · rw [b2] at c5
        exact c5

theorem bind_ok {α β : Type} {m : PyM Port α} {f : α → PyM Port β} {p p'' : Port} {b : β} (h : PyM.bind m f p = (.ok b, p'')) :
    ∃ a p', m p = (.ok a, p') ∧ f a p' = (.ok b, p'') := by
  simp only [bind_run] at h
  split at h
  · rename_i a p' heq
    exact ⟨a, p', heq, h⟩
  · cases h

theorem flush_ok {env : Env} {p p' : Port} (h : (rawOps env).flush p = (.ok (), p')) : p' = advance env p := by
  simp only [rawOps, mayFail] at h
  split at h
  · cases h
  · cases h; rfl

theorem flushInput_ok {env : Env} {p p' : Port} (h : (rawOps env).flushInput p = (.ok (), p')) :
    p' = { advance env p with buf := [] } := by
  simp only [rawOps, mayFail] at h
  split at h
  · cases h
  · cases h; rfl

/-- A command that is acknowledged when nothing else can be read has been obeyed. -/
theorem acknowledged {env : Env} (hp : Prompt env) (hq : Quiet env) (n : Nat) (cmd : List Byte) (hc : CR ∉ cmd) (p p1 p2 p3 : Port)
    (hi : p.inbuf = []) (ho : p.owed = []) (hs : sigs p = []) (h1 : sendCommand (rawOps env) cmd p = (.ok (), p1))
    (h2 : (rawOps env).flush p1 = (.ok (), p2)) (h3 : waitForAck (rawOps env) n p2 = (.ok (), p3)) :
    p3.inbuf = [] ∧ p3.owed = [] ∧ sigs p3 = [] ∧ p3.isOpen = (obey cmd p).isOpen ∧ p3.speed = (obey cmd p).speed ∧
      p3.inits = p.inits ∧ p3.connected = p.connected := by
  obtain ⟨w1, w2, w3, w4, w5, w6, w7⟩ := write_spec hp hq cmd hc p p1 h1
  have e2 := flush_ok h2
  have ha := advance_same env p1
  rw [← e2] at ha
  have hs2 : sigs p2 = sigs p1 := by rw [e2, advance_sigs hp hq, w2]; simp
  have ho2 : p2.owed = [] := by rw [e2]; exact advance_owed hp p1
  obtain ⟨a1, a2, -⟩ := waitForAck_sigs hp hq n p2 p3 _ ho2 h3
  have a2 := a2 rfl
  have hsame := ha.trans (h3 ▸ waitForAck_same env n p2)
  rw [hi, List.nil_append] at w3 w4 w5
  rw [hs2, w3, hs, ho] at a2
  simp only [List.filter_nil, List.append_nil, List.nil_append] at a2
  have hr : env.react (p.tick + 1) cmd = .ack := by
    revert a2
    cases env.react (p.tick + 1) cmd with
    | ack => exact fun _ => rfl
    | nack => intro h; cases h
    | mute b => intro h; cases h
  rw [hr] at a2 w4 w5
  refine ⟨hsame.inbuf.trans w1, a1, ?_, hsame.isOpen.trans w4, hsame.speed.trans w5, hsame.inits.trans w6, hsame.connected.trans w7⟩
  simp only [List.cons.injEq, true_and] at a2
  exact a2.symm

theorem speedCommand_cr (code : Nat) (h : code ≤ 8) : CR ∉ speedCommand code := by
  have : ∀ c : Fin 9, CR ∉ speedCommand c.1 := by decide +kernel
  exact this ⟨code, by omega⟩

theorem obey_speed (code : Nat) (h : code ≤ 8) (p : Port) : ∃ r : Nat, (obey (speedCommand code) p).speed = some r ∧
    speedCodes.lookup (r : Int) = some code ∧ (obey (speedCommand code) p).isOpen = p.isOpen := by
  have key : ∀ c : Fin 9, ∃ r, rateOf (BitVec.ofNat 8 (48 + c.1)) = some r ∧ speedCodes.lookup (r : Int) = some c.1 := by
    intro c
    match c with
    | 0 => exact ⟨10000, by decide +kernel⟩
    | 1 => exact ⟨20000, by decide +kernel⟩
    | 2 => exact ⟨50000, by decide +kernel⟩
    | 3 => exact ⟨100000, by decide +kernel⟩
    | 4 => exact ⟨125000, by decide +kernel⟩
    | 5 => exact ⟨250000, by decide +kernel⟩
    | 6 => exact ⟨500000, by decide +kernel⟩
    | 7 => exact ⟨800000, by decide +kernel⟩
    | 8 => exact ⟨1000000, by decide +kernel⟩
  obtain ⟨r, h1, h2⟩ := key ⟨code, by omega⟩
  refine ⟨r, ?_, h2, ?_⟩ <;> simp [obey, speedCommand, h1]

theorem attempt_ready {env : Env} (hp : Prompt env) (hq : Quiet env) (fuel code : Nat) (hc : code ≤ 8) (p p' : Port)
    (h : attempt env (rawOps env) fuel code p = (.ok (), p')) :
    p'.isOpen = true ∧ (∃ r : Nat, p'.speed = some r ∧ speedCodes.lookup (r : Int) = some code) ∧ p'.owed = [] ∧ p'.inbuf = [] := by
  unfold attempt at h
  obtain ⟨_, p1, h1, h⟩ := bind_ok h
  obtain ⟨_, p2, h2, h⟩ := bind_ok h
  obtain ⟨_, p3, h3, h⟩ := bind_ok h
  obtain ⟨_, p4, h4, h⟩ := bind_ok h
  obtain ⟨_, p5, h5, h⟩ := bind_ok h
  obtain ⟨_, p6, h6, h⟩ := bind_ok h
  obtain ⟨_, p7, h7, h⟩ := bind_ok h
  obtain ⟨_, p8, h8, h⟩ := bind_ok h
  obtain ⟨_, p9, h9, h⟩ := bind_ok h
  obtain ⟨_, p10, h10, h⟩ := bind_ok h
  obtain ⟨_, p11, h11, h⟩ := bind_ok h
  obtain ⟨_, p12, h12, h⟩ := bind_ok h
  obtain ⟨_, p13, h13, h⟩ := bind_ok h
  obtain ⟨_, p14, h14, h15⟩ := bind_ok h
  -- the empty command, and everything read is discarded
  have w1 := write_spec hp hq [] (by simp) p p1 h1
  have s2 := waitForAny_same env fuel p1
  rw [h2] at s2
  have e3 : p3 = advance env p2 := by cases h3; rfl
  have e4 := flushInput_ok h4
  have i4 : p4.inbuf = [] := by
    rw [e4, e3]
    exact (((advance_same env _).inbuf.trans (advance_same env _).inbuf).trans s2.inbuf).trans w1.1
  have o4 : p4.owed = [] := by rw [e4]; exact advance_owed hp _
  have g4 : sigs p4 = [] := by rw [e4]; rfl
  -- closing the channel
  obtain ⟨w1, w2, w3, -, -⟩ := write_spec hp hq [ch 'C'] (by decide +kernel) p4 p5 h5
  have hl : (sigs p5).length ≤ 1 := by
    rw [w3, g4, o4]
    simp only [List.filter_nil, List.append_nil, List.nil_append]
    split <;> simp
  obtain ⟨o6, g6⟩ := waitForAny_sigs hp hq fuel p5 p6 w2 hl h6
  have s6 := waitForAny_same env fuel p5
  rw [h6] at s6
  have i6 : p6.inbuf = [] := s6.inbuf.trans w1
  -- the speed, and opening the channel
  obtain ⟨i9, o9, g9, -, v9, -, -⟩ := acknowledged hp hq fuel _ (speedCommand_cr code hc) p6 p7 p8 p9 i6 o6 g6 h7 h8 h9
  obtain ⟨i12, o12, g12, b12, v12, -, -⟩ := acknowledged hp hq fuel [ch 'O'] (by decide +kernel) p9 p10 p11 p12 i9 o9 g9 h10 h11 h12
  -- the error flags
  obtain ⟨w1, w2, w3, w4, w5, -, -⟩ := write_spec hp hq [ch 'F'] (by decide +kernel) p12 p13 h13
  have e14 := flush_ok h14
  have s14 := advance_same env p13
  rw [← e14] at s14
  have s15 := waitForAny_same env fuel p14
  rw [h15] at s15
  have hf : ∀ q : Port, (obey [ch 'F'] q).isOpen = q.isOpen ∧ (obey [ch 'F'] q).speed = q.speed := by
    intro q
    have h1 : (ch 'F' = ch 'C') = False := by decide +kernel
    have h2 : (ch 'F' = ch 'O') = False := by decide +kernel
    simp [obey, h1, h2]
  rw [i12, List.nil_append] at w4 w5
  have b13 : p13.isOpen = p12.isOpen := by
    rw [w4]
    split <;> first | rfl | exact (hf p12).1
  have v13 : p13.speed = p12.speed := by
    rw [w5]
    split <;> first | rfl | exact (hf p12).2
  have bo : ∀ q : Port, (obey [ch 'O'] q).isOpen = true ∧ (obey [ch 'O'] q).speed = q.speed := by
    intro q
    have h1 : (ch 'O' = ch 'C') = False := by decide +kernel
    simp [obey, h1]
  obtain ⟨r, hr1, hr2, -⟩ := obey_speed code hc p6
  refine ⟨?_, ⟨r, ?_, hr2⟩, ?_, ?_⟩
  · rw [s15.isOpen, s14.isOpen, b13, b12]; exact (bo p9).1
  · rw [s15.speed, s14.speed, v13, v12, (bo p9).2, v9, hr1]
  · have o14 : p14.owed = [] := by rw [e14]; exact advance_owed hp _
    simp only [waitForAny, PyM.tryCatch] at h15
    split at h15
    · rename_i heq
      cases h15
      exact (waitForAck_sigs hp hq fuel p14 p' _ o14 heq).1
    · rename_i heq
      split at h15
      · cases h15
        exact (waitForAck_sigs hp hq fuel p14 p' _ o14 heq).1
      · cases h15
  · rw [s15.inbuf, s14.inbuf, w1]

theorem attempts_ready {env : Env} (hp : Prompt env) (hq : Quiet env) (fuel code : Nat) (hc : code ≤ 8) (n : Nat) : ∀ p p' : Port,
    attempts env (rawOps env) fuel code n p = (.ok (), p') →
    p'.isOpen = true ∧ (∃ r : Nat, p'.speed = some r ∧ speedCodes.lookup (r : Int) = some code) ∧ p'.inbuf = [] := by
  induction n with
  | zero =>
    intro p p' h
    obtain ⟨h1, h2, -, h3⟩ := attempt_ready hp hq fuel code hc p p' h
    exact ⟨h1, h2, h3⟩
  | succ n ih =>
    intro p p' h
    simp only [attempts, PyM.tryCatch] at h
    split at h
    · rename_i heq
      cases h
      obtain ⟨h1, h2, -, h3⟩ := attempt_ready hp hq fuel code hc p p' heq
      exact ⟨h1, h2, h3⟩
    · split at h
      · cases h
      · exact ih _ _ h

theorem lookup_code (rate : Int) (code : Nat) (h : speedCodes.lookup rate = some code) : code ≤ 8 ∧
    ∀ rate', speedCodes.lookup rate' = some code → rate' = rate := by
  have hm : ∀ (l : List (Int × Nat)) (r : Int) (c : Nat), l.lookup r = some c → (r, c) ∈ l := by
    intro l r c
    induction l with
    | nil => intro h; cases h
    | cons x l ih =>
      obtain ⟨a, b⟩ := x
      simp only [List.lookup_cons]
      split
      · rename_i he
        intro h
        cases h
        rw [eq_of_beq he]
        exact List.mem_cons_self
      · exact fun h => List.mem_cons_of_mem _ (ih h)
  have key : ∀ x ∈ speedCodes, x.2 ≤ 8 ∧ ∀ y ∈ speedCodes, y.2 = x.2 → y.1 = x.1 := by decide +kernel
  obtain ⟨h1, h2⟩ := key _ (hm _ _ _ h)
  exact ⟨h1, fun rate' h' => h2 _ (hm _ _ _ h') rfl⟩

theorem init_ready {env : Env} (hp : Prompt env) (hq : Quiet env) (fuel : Nat) (bitrate : Option Int) (p p' : Port)
    (h : initAdapter env (rawOps env) fuel bitrate p = (.ok (), p')) : Ready (bitrate.getD 1000000) p' ∧ p'.inbuf = [] := by
  cases hcode : speedCodes.lookup (bitrate.getD 1000000) with
  | none =>
    simp only [initAdapter, hcode, raise] at h
    cases h
  | some code =>
    simp only [initAdapter, hcode] at h
    obtain ⟨hc, huniq⟩ := lookup_code _ _ hcode
    obtain ⟨_, p1, h1, h⟩ := bind_ok h
    obtain ⟨_, p2, h2, h3⟩ := bind_ok h
    obtain ⟨a1, ⟨r, a2, a3⟩, a4⟩ := attempts_ready hp hq fuel code hc 3 p p1 h1
    have e2 : p2 = advance env p1 := by cases h2; rfl
    have e3 := flushInput_ok h3
    subst e2 e3
    exact ⟨⟨a1, r, a2, huniq _ a3⟩, a4⟩

/-! ## C102 -/

/-- C102 for adapters whose answers arrive in time and that send nothing of their own accord that looks like an answer. (Missing: late answers and
frames received during the initialisation, see `C102_counterexample` and `C102_late_counterexample`.) -/
theorem C102_partial (env : Env) (hp : Prompt env) (hq : Quiet env) (fuel : Nat) (bitrate : Option Int) (p p' : Port)
    (h : initAdapter env (rawOps env) fuel bitrate p = (.ok (), p')) : Ready (bitrate.getD 1000000) p' :=
  (init_ready hp hq fuel bitrate p p' h).1

/-- The other way round: an adapter that says nothing but its answers, in time, and that acknowledges the commands S and O, is initialised in the first
attempt, whatever was left in the port and whatever it makes of the other commands. -/
def Obliging (env : Env) (code : Nat) : Prop :=
  (∀ t o, env.chatter t o = []) ∧ (∀ t, env.fails t = false) ∧ ∀ t, env.react t (speedCommand code) = .ack ∧ env.react t [ch 'O'] = .ack

/-- How much can be read. -/
def size (p : Port) : Nat := p.buf.length + p.owed.length

theorem advance_size {env : Env} (hp : Prompt env) (hs : ∀ t o, env.chatter t o = []) (p : Port) :
    size (advance env p) = size p ∧ (advance env p).buf = p.buf ++ p.owed := by
  simp [advance, hp p.tick, hs, size]

theorem wait_total {env : Env} (hp : Prompt env) (hs : ∀ t o, env.chatter t o = []) (hf : ∀ t, env.fails t = false) (n : Nat) :
    ∀ p : Port, p.connected = true → size p < n → ∃ r p', waitForAck (rawOps env) n p = (r, p') ∧ (r = .ok () ∨ r = .error .driverError) ∧
      size p' ≤ size p - 1 := by
  induction n with
  | zero => intro p _ h; omega
  | succ n ih =>
    intro p hc h
    obtain ⟨hsz, hb⟩ := advance_size hp hs p
    have hfail : ¬ (p.connected = false ∨ env.fails p.tick = true) := by simp [hc, hf]
    simp only [waitForAck, bind_run, rawOps, mayFail, if_neg hfail]
    cases hbuf : (advance env p).buf with
    | nil =>
      have ho := advance_owed hp p
      have hz : size (advance env p) = 0 := by simp [size, hbuf, ho]
      exact ⟨_, _, rfl, .inr rfl, by omega⟩
    | cons b rest =>
      obtain ⟨q, hq⟩ : ∃ q : Port, q = { advance env p with buf := rest } := ⟨_, rfl⟩
      have hsz' : size q + 1 = size p := by
        rw [← hsz, hq]
        simp only [size, hbuf, List.length_cons]
        omega
      have hcq : q.connected = true := by rw [hq]; exact hc
      simp only
      rw [← hq]
      split
      · exact ⟨_, q, rfl, .inr rfl, by omega⟩
      · split
        · exact ⟨_, q, rfl, .inl rfl, by omega⟩
        · obtain ⟨r, p', h1, h2, h3⟩ := ih q hcq (by omega)
          exact ⟨r, p', h1, h2, by omega⟩

theorem waitForAny_total {env : Env} (hp : Prompt env) (hs : ∀ t o, env.chatter t o = []) (hf : ∀ t, env.fails t = false) (n : Nat)
    (p : Port) (hc : p.connected = true) (hn : size p < n) : ∃ p', waitForAny (rawOps env) n p = (.ok (), p') ∧ size p' ≤ size p - 1 := by
  obtain ⟨r, p', h1, h2, h3⟩ := wait_total hp hs hf n p hc hn
  refine ⟨p', ?_, h3⟩
  simp only [waitForAny, PyM.tryCatch, h1]
  rcases h2 with rfl | rfl <;> rfl

theorem write_total {env : Env} (hp : Prompt env) (hs : ∀ t o, env.chatter t o = []) (hf : ∀ t, env.fails t = false) (cmd : List Byte)
    (hcr : CR ∉ cmd) (p : Port) (hc : p.connected = true) :
    ∃ p', sendCommand (rawOps env) cmd p = (.ok (), p') ∧ p'.connected = true ∧ p'.inbuf = [] ∧ size p' ≤ size p + 1 := by
  have hq : Quiet env := fun t o => by simp [hs]
  have hfail : ¬ p.connected = false := by simp [hc]
  have hfail' : ¬ env.fails p.tick = true := by simp [hf]
  obtain ⟨p', h⟩ : ∃ p', p' = advance env (feed env (cmd ++ [CR]) (advance env p)) := ⟨_, rfl⟩
  have h1 : sendCommand (rawOps env) cmd p = (.ok (), p') := by
    simp only [sendCommand, rawOps, if_neg hfail, if_neg hfail', h]
  obtain ⟨w1, -, -, -, -, -, w7⟩ := write_spec hp hq cmd hcr p p' h1
  refine ⟨p', h1, w7.trans hc, w1, ?_⟩
  rw [h, (advance_size hp hs _).1, feed_plain env cmd hcr]
  obtain ⟨-, c2, c3, -⟩ := command_spec env ((advance env p).inbuf ++ cmd) { advance env p with inbuf := [] }
  have h1 := (advance_size hp hs p).1
  simp only [size] at h1 ⊢
  rw [c2, c3, List.length_append]
  split <;> simp only [List.length_cons, List.length_nil] <;> omega

theorem flush_total {env : Env} (hf : ∀ t, env.fails t = false) (p : Port) (hc : p.connected = true) :
    (rawOps env).flush p = (.ok (), advance env p) ∧ (rawOps env).flushInput p = (.ok (), { advance env p with buf := [] }) := by
  have hfail : ¬ (p.connected = false ∨ env.fails p.tick = true) := by simp [hc, hf]
  simp only [rawOps, mayFail, if_neg hfail, and_self]

/-- A command that will be acknowledged is sent, and the acknowledgement read. -/
theorem acknowledged_total {env : Env} (hp : Prompt env) (hs : ∀ t o, env.chatter t o = []) (hf : ∀ t, env.fails t = false) (n : Nat)
    (hn : 1 < n) (cmd : List Byte) (hcr : CR ∉ cmd) (hack : ∀ t, env.react t cmd = .ack) (p : Port) (hc : p.connected = true)
    (hi : p.inbuf = []) (hz : size p = 0) :
    ∃ p1 p3, sendCommand (rawOps env) cmd p = (.ok (), p1) ∧ (rawOps env).flush p1 = (.ok (), advance env p1) ∧
      waitForAck (rawOps env) n (advance env p1) = (.ok (), p3) ∧ p3.connected = true ∧ p3.inbuf = [] ∧ size p3 = 0 := by
  have hq : Quiet env := fun t o => by simp [hs]
  obtain ⟨p1, h1, c1, -, z1⟩ := write_total hp hs hf cmd hcr p hc
  have hbuf : p.buf = [] ∧ p.owed = [] := by
    simp only [size] at hz
    exact ⟨List.length_eq_zero_iff.1 (by omega), List.length_eq_zero_iff.1 (by omega)⟩
  obtain ⟨w1, w2, w3, -⟩ := write_spec hp hq cmd hcr p p1 h1
  rw [hi, List.nil_append, hack, hbuf.2] at w3
  have hsig : sigs p = [] := by simp [sigs, hbuf.1]
  rw [hsig] at w3
  simp only [List.filter_nil, List.append_nil, List.nil_append] at w3
  have hsig' : sigs (advance env p1) = [CR] := by rw [advance_sigs hp hq, w2, w3]; rfl
  have z2 := (advance_size hp hs p1).1
  obtain ⟨r, p3, a1, a2, a3⟩ := wait_total hp hs hf n (advance env p1) c1 (by omega)
  obtain ⟨b1, b2, b3⟩ := waitForAck_sigs hp hq n _ _ _ (advance_owed hp p1) a1
  have hr : r = .ok () := by
    rcases a2 with a2 | a2
    · exact a2
    · rcases b3 a2 with b3 | b3
      · rw [hsig'] at b3
        cases (List.cons.inj b3).1
      · rw [hsig'] at b3
        cases b3.1
  subst hr
  have hsame := waitForAck_same env n (advance env p1)
  rw [a1] at hsame
  refine ⟨p1, p3, h1, (flush_total hf p1 c1).1, a1, hsame.connected.trans c1, hsame.inbuf.trans w1, ?_⟩
  omega

/-- C102, the success of the initialisation. -/
theorem C102_success (env : Env) (hp : Prompt env) (rate : Int) (code : Nat) (hcode : speedCodes.lookup rate = some code) (ho : Obliging env code)
    (fuel : Nat) (p : Port) (hc : p.connected = true) (hfuel : p.buf.length + p.owed.length + 1 < fuel) :
    ∃ p', initAdapter env (rawOps env) fuel (some rate) p = (.ok (), p') ∧ p'.connected = true ∧ p'.buf = [] := by
  obtain ⟨hs, hf, hack⟩ := ho
  obtain ⟨hcode8, -⟩ := lookup_code _ _ hcode
  have hsz : size p + 1 < fuel := hfuel
  obtain ⟨p1, h1, c1, i1, z1⟩ := write_total hp hs hf [] (by simp) p hc
  obtain ⟨p2, h2, z2⟩ := waitForAny_total hp hs hf fuel p1 c1 (by omega)
  have s2 := waitForAny_same env fuel p1
  rw [h2] at s2
  have h3 : sleep env p2 = (.ok (), advance env p2) := rfl
  have c3 : (advance env p2).connected = true := s2.connected.trans c1
  obtain ⟨q, hq⟩ : ∃ q : Port, q = { advance env (advance env p2) with buf := [] } := ⟨_, rfl⟩
  have h4 : (rawOps env).flushInput (advance env p2) = (.ok (), q) := by rw [(flush_total hf _ c3).2, hq]
  have c4 : q.connected = true := by rw [hq]; exact c3
  have z4 : size q = 0 := by
    have := advance_owed hp (advance env p2)
    rw [hq]
    simp [size, this]
  obtain ⟨p5, h5, c5, i5, z5⟩ := write_total hp hs hf [ch 'C'] (by decide +kernel) q c4
  obtain ⟨p6, h6, z6⟩ := waitForAny_total hp hs hf fuel p5 c5 (by omega)
  have s6 := waitForAny_same env fuel p5
  rw [h6] at s6
  obtain ⟨p7, p9, h7, h8, h9, c9, i9, z9⟩ := acknowledged_total hp hs hf fuel (by omega) _ (speedCommand_cr code hcode8) (fun t => (hack t).1) p6
    (s6.connected.trans c5) (s6.inbuf.trans i5) (by omega)
  obtain ⟨p10, p12, h10, h11, h12, c12, i12, z12⟩ := acknowledged_total hp hs hf fuel (by omega) [ch 'O'] (by decide +kernel)
    (fun t => (hack t).2) p9 c9 i9 z9
  obtain ⟨p13, h13, c13, i13, z13⟩ := write_total hp hs hf [ch 'F'] (by decide +kernel) p12 c12
  have h14 := (flush_total hf p13 c13).1
  have z14 := (advance_size hp hs p13).1
  obtain ⟨p15, h15, z15⟩ := waitForAny_total hp hs hf fuel (advance env p13) c13 (by omega)
  have s15 := waitForAny_same env fuel (advance env p13)
  rw [h15] at s15
  have h16 : sleep env p15 = (.ok (), advance env p15) := rfl
  have c16 : (advance env p15).connected = true := s15.connected.trans c13
  have h17 := (flush_total hf _ c16).2
  have hatt : attempt env (rawOps env) fuel code p = (.ok (), p15) := by
    simp only [attempt, bind_run, h1, h2, h3, h4, h5, h6, h7, h8, h9, h10, h11, h12, h13, h14, h15]
  refine ⟨{ advance env (advance env p15) with buf := [] }, ?_, c16, rfl⟩
  simp only [initAdapter, Option.getD_some, hcode, bind_run, attempts, PyM.tryCatch, hatt, h16, h17]

/-- C102, bit rates that are not supported: nothing is sent. -/
theorem C102_unknown (env : Env) (ops : Ops) (fuel : Nat) (rate : Int) (p : Port)
    (h : rate ∉ [10000, 20000, 50000, 100000, 125000, 250000, 500000, 800000, 1000000]) :
    initAdapter env ops fuel (some rate) p = (.error .keyError, p) := by
  have : speedCodes.lookup rate = none := by
    simp only [List.mem_cons, List.not_mem_nil, or_false, not_or] at h
    simp only [speedCodes, List.lookup_cons]
    obtain ⟨h1, h2, h3, h4, h5, h6, h7, h8, h9⟩ := h
    simp only [beq_eq_false_iff_ne.2 h1, beq_eq_false_iff_ne.2 h2, beq_eq_false_iff_ne.2 h3, beq_eq_false_iff_ne.2 h4, beq_eq_false_iff_ne.2 h5,
      beq_eq_false_iff_ne.2 h6, beq_eq_false_iff_ne.2 h7, beq_eq_false_iff_ne.2 h8, beq_eq_false_iff_ne.2 h9, List.lookup_nil]
  simp only [initAdapter, Option.getD_some, this, raise]

/-- BEL is a refusal, a carriage return the confirmation; other bytes are skipped. -/
theorem C102_answer (ops : Ops) (n : Nat) (p p' : Port) (b : Byte) (h : ops.read p = (.ok (some b), p')) :
    waitForAck ops (n + 1) p = if b = 0x07#8 then (.error .driverError, p') else if b = 0x0D#8 then (.ok (), p') else waitForAck ops n p' := by
  have e1 : NACK = 0x07#8 := by decide
  have e2 : CR = 0x0D#8 := by decide
  simp only [waitForAck, bind_run, h, e1, e2]
  split
  · rfl
  · split <;> rfl

/-! ### What the adapter gets -/

/-- The commands of one attempt. -/
def script (code : Nat) : List (List Byte) := [[], [ch 'C'], speedCommand code, [ch 'O'], [ch 'F']]

/-- The commands the adapter has got. -/
def got (p : Port) : List (List Byte) := p.lines.map (·.1)

/-- The computation sends these commands, or the first of them and raises. -/
def Sends {α : Type} (m : PyM Port α) (cmds : List (List Byte)) : Prop :=
  ∀ p : Port, p.inbuf = [] → ∃ l, l <+: cmds ∧ got (m p).2 = got p ++ l ∧ (m p).2.inbuf = [] ∧ ∀ a, (m p).1 = .ok a → l = cmds

theorem Sends.of_same {α : Type} {m : PyM Port α} (h : ∀ p, SameAdapter p (m p).2) : Sends m [] := fun p hi =>
  ⟨[], List.prefix_refl _, by rw [got, (h p).lines, List.append_nil]; rfl, (h p).inbuf.trans hi, fun _ _ => rfl⟩

theorem Sends.bind {α β : Type} {m : PyM Port α} {f : α → PyM Port β} {a b : List (List Byte)} (hm : Sends m a) (hf : ∀ x, Sends (f x) b) :
    Sends (PyM.bind m f) (a ++ b) := by
  intro p hi
  obtain ⟨l, l1, l2, l3, l4⟩ := hm p hi
  simp only [bind_run]
  cases hr : m p with
  | mk r p' =>
    rw [hr] at l2 l3 l4
    cases r with
    | error e =>
      exact ⟨l, l1.trans (List.prefix_append a b), l2, l3, fun _ h => (nomatch h)⟩
    | ok x =>
      obtain ⟨k, k1, k2, k3, k4⟩ := hf x p' l3
      have e := l4 x rfl
      subst e
      refine ⟨l ++ k, (List.prefix_append_right_inj l).2 k1, ?_, k3, fun y hy => by rw [k4 y hy]⟩
      simp only at l2 ⊢
      rw [k2, l2, List.append_assoc]

/-- A write that raises has not written anything. -/
def Whole (env : Env) : Prop := ∀ t, env.fails t = true → env.written t = 0

theorem Sends.cmd {env : Env} (hw : Whole env) (cmd : List Byte) (hc : CR ∉ cmd) : Sends (sendCommand (rawOps env) cmd) [cmd] := by
  intro p hi
  simp only [sendCommand, rawOps]
  have hnil : ∀ q : Port, q.inbuf = [] → SameAdapter p q → ∃ l, l <+: [cmd] ∧ got q = got p ++ l ∧ q.inbuf = [] ∧
      ∀ a : Unit, (Except.error .runtimeError : Except Err Unit) = .ok a → l = [cmd] := fun q hq hs =>
    ⟨[], List.nil_prefix, by rw [got, hs.lines, List.append_nil]; rfl, hq, fun _ h => (nomatch h)⟩
  split
  · exact hnil _ hi (advance_same env p)
  · split
    · rename_i hf
      rw [hw _ hf]
      exact hnil _ hi ((advance_same env p).trans (advance_same env _))
    · rw [feed_plain env cmd hc]
      obtain ⟨c1, -, -, -, -, -, -, c8, -⟩ := command_spec env ((advance env p).inbuf ++ cmd) { advance env p with inbuf := [] }
      refine ⟨[cmd], List.prefix_refl _, ?_, c1, fun _ _ => rfl⟩
      have e : (advance env p).inbuf = [] := hi
      show List.map (·.1) (command env ((advance env p).inbuf ++ cmd) { advance env p with inbuf := [] }).lines = _
      rw [c8, List.map_append, e]
      rfl

theorem flush_same (env : Env) (p : Port) : SameAdapter p ((rawOps env).flush p).2 := by
  simp only [rawOps, mayFail]
  split <;> exact advance_same env p

theorem flushInput_same (env : Env) (p : Port) : SameAdapter p ((rawOps env).flushInput p).2 := by
  simp only [rawOps, mayFail]
  split
  · exact advance_same env p
  · exact (advance_same env p).trans ⟨rfl, rfl, rfl, rfl, rfl, rfl⟩

theorem attempt_sends {env : Env} (hw : Whole env) (fuel code : Nat) (hc : code ≤ 8) : Sends (attempt env (rawOps env) fuel code) (script code) := by
  have any := Sends.of_same (waitForAny_same env fuel)
  have ack := Sends.of_same (waitForAck_same env fuel)
  have fl := Sends.of_same (flush_same env)
  refine (Sends.cmd hw [] (by simp)).bind (b := [[ch 'C'], speedCommand code, [ch 'O'], [ch 'F']]) fun _ => ?_
  refine any.bind fun _ => ?_
  refine (Sends.of_same (m := sleep env) (advance_same env)).bind fun _ => ?_
  refine (Sends.of_same (flushInput_same env)).bind fun _ => ?_
  refine (Sends.cmd hw [ch 'C'] (by decide +kernel)).bind (b := [speedCommand code, [ch 'O'], [ch 'F']]) fun _ => ?_
  refine any.bind fun _ => ?_
  refine (Sends.cmd hw _ (speedCommand_cr code hc)).bind (b := [[ch 'O'], [ch 'F']]) fun _ => ?_
  refine fl.bind fun _ => ?_
  refine ack.bind fun _ => ?_
  refine (Sends.cmd hw [ch 'O'] (by decide +kernel)).bind (b := [[ch 'F']]) fun _ => ?_
  refine fl.bind fun _ => ?_
  refine ack.bind fun _ => ?_
  refine (Sends.cmd hw [ch 'F'] (by decide +kernel)).bind (b := []) fun _ => ?_
  exact fl.bind fun _ => any

theorem attempts_sends {env : Env} (hw : Whole env) (fuel code : Nat) (hc : code ≤ 8) (n : Nat) : ∀ p : Port, p.inbuf = [] →
    ∃ parts : List (List (List Byte)), parts.length ≤ n + 1 ∧ (∀ l ∈ parts, l <+: script code) ∧
      got (attempts env (rawOps env) fuel code n p).2 = got p ++ parts.flatten ∧ (attempts env (rawOps env) fuel code n p).2.inbuf = [] ∧
      ((attempts env (rawOps env) fuel code n p).1 = .ok () → parts.getLast? = some (script code)) := by
  have one : ∀ p : Port, p.inbuf = [] → ∃ l, l <+: script code ∧ got (attempt env (rawOps env) fuel code p).2 = got p ++ l ∧
      (attempt env (rawOps env) fuel code p).2.inbuf = [] ∧ ((attempt env (rawOps env) fuel code p).1 = .ok () → l = script code) := by
    intro p hi
    obtain ⟨l, l1, l2, l3, l4⟩ := attempt_sends hw fuel code hc p hi
    exact ⟨l, l1, l2, l3, l4 ()⟩
  induction n with
  | zero =>
    intro p hi
    obtain ⟨l, l1, l2, l3, l4⟩ := one p hi
    exact ⟨[l], by simp, by simpa using l1, by simpa [attempts] using l2, l3, fun h => by simp [l4 h]⟩
  | succ n ih =>
    intro p hi
    obtain ⟨l, l1, l2, l3, l4⟩ := one p hi
    simp only [attempts, PyM.tryCatch]
    split
    · rename_i heq
      rw [heq] at l2 l3 l4
      exact ⟨[l], by simp, by simpa using l1, by simpa using l2, l3, fun h => by simp [l4 h]⟩
    · rename_i e p' heq
      rw [heq] at l2 l3
      split
      · exact ⟨[l], by simp, by simpa using l1, by simpa using l2, l3, fun h => (nomatch h)⟩
      · obtain ⟨parts, k1, k2, k3, k4, k5⟩ := ih p' l3
        refine ⟨l :: parts, by simpa using k1, ?_, ?_, k4, ?_⟩
        · intro x hx
          rcases List.mem_cons.1 hx with rfl | hx
          · exact l1
          · exact k2 x hx
        · simp only at l2
          rw [k3, l2, List.flatten_cons, List.append_assoc]
        · intro h
          rw [List.getLast?_cons, k5 h]
          rfl

/-- C102, what the adapter gets: at most four times the commands ε, C, S, O and F for the bit rate requested, or the first of them; all of them the
last time if the initialisation succeeds. -/
theorem C102_script (env : Env) (hw : Whole env) (fuel : Nat) (rate : Int) (p : Port) (hi : p.inbuf = []) (r : Except Err Unit) (p' : Port)
    (h : initAdapter env (rawOps env) fuel (some rate) p = (r, p')) : r = .error .keyError ∧ p' = p ∨
    ∃ code, rateOf (BitVec.ofNat 8 (48 + code)) = some rate.toNat ∧ ∃ parts : List (List (List Byte)), parts.length ≤ 4 ∧
      (∀ l ∈ parts, l <+: [[], [ch 'C'], [ch 'S', BitVec.ofNat 8 (48 + code)], [ch 'O'], [ch 'F']]) ∧ got p' = got p ++ parts.flatten ∧
      (r = .ok () → parts.getLast? = some [[], [ch 'C'], [ch 'S', BitVec.ofNat 8 (48 + code)], [ch 'O'], [ch 'F']]) := by
  cases hcode : speedCodes.lookup rate with
  | none =>
    simp only [initAdapter, Option.getD_some, hcode, raise] at h
    cases h
    exact .inl ⟨rfl, rfl⟩
  | some code =>
    obtain ⟨hc, huniq⟩ := lookup_code _ _ hcode
    refine .inr ⟨code, ?_, ?_⟩
    · obtain ⟨r, h1, h2, -⟩ := obey_speed code hc { speed := none }
      rw [← huniq _ h2]
      simp only [obey, speedCommand, if_true] at h1
      cases hr : rateOf (BitVec.ofNat 8 (48 + code)) with
      | none => rw [hr] at h1; cases h1
      | some x => rw [hr] at h1; cases h1; simp
    · obtain ⟨parts, k1, k2, k3, k4, k5⟩ := attempts_sends hw fuel code hc 3 p hi
      simp only [initAdapter, Option.getD_some, hcode, bind_run] at h
      refine ⟨parts, k1, k2, ?_, ?_⟩
      · split at h
        · rename_i u p1 heq
          rw [heq] at k3
          have hs := flushInput_same env (advance env p1)
          simp only [sleep] at h
          rw [h] at hs
          simp only at k3
          rw [← k3, got, hs.lines]
          rfl
        · rename_i e p1 heq
          rw [heq] at k3
          cases h
          exact k3
      · intro hr
        subst hr
        split at h
        · rename_i u p1 heq
          rw [heq] at k5
          exact k5 rfl
        · cases h

/-! ### The channel is closed when the bit rate is set -/

/-- Nothing that the computation does breaks the invariant. -/
def Keeps {α : Type} (I : Port → Prop) (m : PyM Port α) : Prop := ∀ p, I p → I (m p).2

theorem Keeps.bind {α β : Type} {I : Port → Prop} {m : PyM Port α} {f : α → PyM Port β} (hm : Keeps I m) (hf : ∀ x, Keeps I (f x)) :
    Keeps I (PyM.bind m f) := by
  intro p hp
  have h := hm p hp
  simp only [bind_run]
  cases hr : m p with
  | mk r p' =>
    rw [hr] at h
    cases r with
    | error e => exact h
    | ok x => exact hf x p' h

/-- The commands received after others by which the channel has been closed: it is. -/
def Shut (n : Nat) (p : Port) : Prop := n ≤ p.lines.length ∧
  (p.lines.drop n = [] ∨ ((∃ x, p.lines.getLast? = some ([ch 'C'], x)) → p.isOpen = false)) ∧
  ∀ a x cmd o v b, p.lines.drop n = a ++ ([ch 'C'], x) :: (cmd, o, v) :: b → o = false

theorem Shut.of_same {n : Nat} {p q : Port} (h : SameAdapter p q) (hs : Shut n p) : Shut n q := by
  obtain ⟨h0, h1, h2⟩ := hs
  exact ⟨h.lines ▸ h0, (by rw [h.lines, h.isOpen]; exact h1), (by rw [h.lines]; exact h2)⟩

/-- The adapter obeys the command to close the channel. -/
def Closes (env : Env) : Prop := ∀ t, env.react t [ch 'C'] = .ack ∨ env.react t [ch 'C'] = .mute true

theorem shut_command {env : Env} (hc : Closes env) (n : Nat) (cmd : List Byte) (p : Port) (h : Shut n p) : Shut n (command env cmd p) := by
  have hlines : (command env cmd p).lines = p.lines ++ [(cmd, p.isOpen, p.speed)] := by
    unfold SlcanInit.command
    simp only
    split
    · rw [obey_eq]
    · rfl
    · rw [obey_eq]
    · rfl
  obtain ⟨h0, h1, h2⟩ := h
  refine ⟨by rw [hlines, List.length_append]; omega, .inr ?_, ?_⟩
  · rintro ⟨x, hx⟩
    rw [hlines, List.getLast?_append] at hx
    simp only [List.getLast?_singleton, Option.some_or, Option.some.injEq, Prod.mk.injEq] at hx
    obtain ⟨rfl, -⟩ := hx
    unfold SlcanInit.command
    rcases hc p.tick with h | h <;> simp [h, obey]
  · intro a x cmd' o v b hb
    rw [hlines, List.drop_append_of_le_length h0] at hb
    rcases List.eq_nil_or_concat b with rfl | ⟨b, y, rfl⟩
    · have e : a ++ ([ch 'C'], x) :: [(cmd', o, v)] = (a ++ [([ch 'C'], x)]) ++ [(cmd', o, v)] := by simp
      rw [e] at hb
      obtain ⟨e1, e2⟩ := List.append_inj' hb rfl
      cases e2
      rcases h1 with h1 | h1
      · rw [h1] at e1; simp at e1
      · refine h1 ⟨x, ?_⟩
        have : (p.lines.drop n).getLast? = some ([ch 'C'], x) := by rw [e1]; simp
        rw [List.getLast?_drop] at this
        split at this
        · cases this
        · exact this
    · have e : a ++ ([ch 'C'], x) :: (cmd', o, v) :: (b ++ [y]) = (a ++ ([ch 'C'], x) :: (cmd', o, v) :: b) ++ [y] := by simp
      simp only [List.concat_eq_append] at hb
      rw [e] at hb
      exact h2 a x cmd' o v b (List.append_inj' hb rfl).1

theorem shut_feed {env : Env} (hc : Closes env) (n : Nat) (bytes : List Byte) : ∀ p, Shut n p → Shut n (feed env bytes p) := by
  induction bytes with
  | nil => exact fun _ h => h
  | cons c cs ih =>
    intro p h
    simp only [SlcanInit.feed]
    split
    · exact ih _ (shut_command hc n _ _ h)
    · exact ih _ h

theorem shut_write {env : Env} (hc : Closes env) (n : Nat) (bytes : List Byte) : Keeps (Shut n) ((rawOps env).write bytes) := by
  intro p h
  simp only [rawOps]
  split
  · exact h.of_same (advance_same env p)
  · split
    · exact Shut.of_same (advance_same env _) (shut_feed hc n _ _ (h.of_same (advance_same env p)))
    · exact Shut.of_same (advance_same env _) (shut_feed hc n _ _ (h.of_same (advance_same env p)))

theorem shut_attempt {env : Env} (hc : Closes env) (n fuel code : Nat) : Keeps (Shut n) (attempt env (rawOps env) fuel code) := by
  have w := fun cmd => shut_write hc n (cmd ++ [CR])
  have a : Keeps (Shut n) (waitForAck (rawOps env) fuel) := fun p h => h.of_same (waitForAck_same env fuel p)
  have y : Keeps (Shut n) (waitForAny (rawOps env) fuel) := fun p h => h.of_same (waitForAny_same env fuel p)
  have f : Keeps (Shut n) (rawOps env).flush := fun p h => h.of_same (flush_same env p)
  have i : Keeps (Shut n) (rawOps env).flushInput := fun p h => h.of_same (flushInput_same env p)
  have z : Keeps (Shut n) (sleep env) := fun p h => h.of_same (advance_same env p)
  exact (w _).bind fun _ => y.bind fun _ => z.bind fun _ => i.bind fun _ => (w _).bind fun _ => y.bind fun _ => (w _).bind fun _ =>
    f.bind fun _ => a.bind fun _ => (w _).bind fun _ => f.bind fun _ => a.bind fun _ => (w _).bind fun _ => f.bind fun _ => y

theorem shut_attempts {env : Env} (hc : Closes env) (n fuel code k : Nat) : Keeps (Shut n) (attempts env (rawOps env) fuel code k) := by
  induction k with
  | zero => exact shut_attempt hc n fuel code
  | succ k ih =>
    intro p h
    have h1 := shut_attempt hc n fuel code p h
    simp only [attempts, PyM.tryCatch]
    cases hr : attempt env (rawOps env) fuel code p with
    | mk r p' =>
      rw [hr] at h1
      cases r with
      | ok _ => exact h1
      | error e =>
        simp only
        split
        · exact h1
        · exact ih p' h1

/-- C102: if the adapter obeys the command to close its channel then the command that follows it (by `C102_script` the one that sets the bit rate) finds
the channel closed. -/
theorem C102_closed (env : Env) (hc : Closes env) (fuel : Nat) (bitrate : Option Int) (p : Port) (a b : List (List Byte × Bool × Option Nat))
    (x : Bool × Option Nat) (cmd : List Byte) (o : Bool) (v : Option Nat)
    (h : (initAdapter env (rawOps env) fuel bitrate p).2.lines = p.lines ++ (a ++ ([ch 'C'], x) :: (cmd, o, v) :: b)) : o = false := by
  have h0 : Shut p.lines.length p := ⟨Nat.le_refl _, .inl (List.drop_length ..), fun a x cmd o v b h => by rw [List.drop_length] at h; simp at h⟩
  have h1 : Shut p.lines.length (initAdapter env (rawOps env) fuel bitrate p).2 := by
    unfold initAdapter
    generalize speedCodes.lookup (bitrate.getD 1000000) = q
    cases q with
    | none => exact h0
    | some code => exact (shut_attempts hc _ fuel _ 3).bind (fun _ => Keeps.bind (fun p h => h.of_same (advance_same env p)) fun _ p h =>
        h.of_same (flushInput_same env p)) p h0
  exact h1.2.2 a x cmd o v b (by rw [h, List.drop_left])

/-! ### The statement of C102 is false -/

/-- An adapter that refuses to open its channel, and was left open: a frame arrives while it is being closed. -/
def busy : Env where
  react _ cmd := if cmd = [ch 'O'] then .nack else .ack
  chatter t isOpen := if isOpen ∧ t = 5 then [ch 't', ch '1', ch '2', ch '3', ch '0', CR] else []
  arrive _ := none
  fails _ := false
  written _ := 0
  reopen _ := none

/-- The end of the frame is taken for the answer to C, the answer to C for that to S, and that to S for the answer to O: the refusal is the fourth
answer, which is ignored. -/
theorem C102_counterexample : ¬ C102_statement := by
  intro h
  have key : (initAdapter busy (rawOps busy) 20 none { isOpen := true }).1.isOk = true ∧
      (initAdapter busy (rawOps busy) 20 none { isOpen := true }).2.isOpen = false := by decide +kernel
  cases hr : initAdapter busy (rawOps busy) 20 none { isOpen := true } with
  | mk r p' =>
    rw [hr] at key
    cases r with
    | error e => cases key.1
    | ok u =>
      have := (h busy 20 none { isOpen := true } p' hr).1
      rw [key.2] at this
      cases this

/-- An adapter that refuses to open its channel, and whose answer to C takes longer than half a second. -/
def late : Env := { busy with
  chatter := fun _ _ => []
  arrive := fun t => if t = 6 ∨ t = 7 then some 0 else none }

theorem C102_late_counterexample : Quiet late ∧ (initAdapter late (rawOps late) 20 none {}).1.isOk = true ∧
    (initAdapter late (rawOps late) 20 none {}).2.isOpen = false :=
  ⟨fun _ _ => ⟨by simp [late], by simp [late]⟩, by decide +kernel, by decide +kernel⟩

/-- An adapter that does as it is told. -/
def good : Env := { busy with
  react := fun _ _ => .ack
  chatter := fun _ _ => [] }

/-- The theorems are about something: an adapter with its channel open at another rate, with half a command and some bytes on the way. -/
example : Prompt good ∧ Quiet good ∧ Whole good ∧ Obliging good 6 ∧ (initAdapter good (rawOps good) 20 (some 500000)
    { isOpen := true, speed := some 20000, inbuf := [ch 'S', ch '8'], buf := [ch 'x', NACK], owed := [CR, CR, NACK] }).1.isOk = true :=
  ⟨fun _ => rfl, fun _ _ => ⟨by simp [good], by simp [good]⟩, fun _ h => (nomatch h), ⟨fun _ _ => rfl, fun _ => rfl, fun _ => ⟨rfl, rfl⟩⟩, by
    decide +kernel⟩

example : Closes good ∧ (initAdapter good (rawOps good) 20 (some 500000) { isOpen := true, speed := some 20000 }).2.lines =
    [([], true, some 20000)] ++ ([ch 'C'], true, some 20000) :: ([ch 'S', ch '6'], false, some 20000) ::
      [([ch 'O'], false, some 500000), ([ch 'F'], true, some 500000)] := ⟨fun _ => .inl rfl, by decide +kernel⟩

/-! ## C103 -/

/-- The last line the adapter has got is this one, and its channel was open at the bit rate. -/
def Heard (rate : Int) (line : List Byte) (p : Port) : Prop := ∃ r : Nat, p.lines.getLast? = some (line, true, some r) ∧ (r : Int) = rate

/-- C103 in full: when writing a line to an adapter that was ready returns, the adapter has got the line, with its channel open at the bit rate. -/
def C103_statement : Prop :=
  ∀ (env : Env) (fuel : Nat) (bitrate : Option Int) (line : List Byte) (p p' : Port), Prompt env → Quiet env → CR ∉ line →
    Ready (bitrate.getD 1000000) p → p.inbuf = [] → (retryOps env fuel bitrate).write (line ++ [CR]) p = (.ok (), p') →
    Heard (bitrate.getD 1000000) line p'

theorem write_heard {env : Env} {rate : Int} {line : List Byte} (hc : CR ∉ line) {p p' : Port} (hr : p.connected = true → Ready rate p ∧ p.inbuf = [])
    (h : (rawOps env).write (line ++ [CR]) p = (.ok (), p')) : Heard rate line p' := by
  simp only [rawOps] at h
  split at h
  · cases h
  · rename_i hcon
    split at h
    · cases h
    · cases h
      obtain ⟨⟨h1, r, h2, h3⟩, h4⟩ := hr (by simpa using hcon)
      rw [feed_plain env line hc]
      obtain ⟨-, -, -, -, -, -, -, c8, -⟩ := command_spec env ((advance env p).inbuf ++ line) { advance env p with inbuf := [] }
      have e1 : (advance env p).inbuf = [] := h4
      have e2 : (advance env p).isOpen = true := h1
      have e3 : (advance env p).speed = some r := h2
      refine ⟨r, ?_, h3⟩
      show (command env ((advance env p).inbuf ++ line) { advance env p with inbuf := [] }).lines.getLast? = _
      rw [c8, e1]
      simp [e2, e3]

theorem write_inits (env : Env) (bytes : List Byte) (p : Port) : ((rawOps env).write bytes p).2.inits = p.inits := by
  have hfeed : ∀ (l : List Byte) (q : Port), (feed env l q).inits = q.inits := by
    intro l
    induction l with
    | nil => exact fun _ => rfl
    | cons c l ih =>
      intro q
      simp only [feed]
      split
      · rw [ih, (command_spec env _ _).2.2.2.2.2.1]
      · rw [ih]
  simp only [rawOps]
  repeat' split
  · rfl
  · exact hfeed _ _
  · exact hfeed _ _

theorem retry_spec {env : Env} (hp : Prompt env) (hq : Quiet env) (fuel : Nat) (bitrate : Option Int) (p p' : Port)
    (h : retry env fuel bitrate p = (.ok (), p')) :
    p'.connected = false ∨ (Ready (bitrate.getD 1000000) p' ∧ p'.inbuf = []) ∨ p'.inits.getLast? = some false := by
  simp only [retry] at h
  split at h
  · cases h
    exact .inl rfl
  · split at h
    · rename_i heq
      cases h
      obtain ⟨h1, h2⟩ := init_ready hp hq fuel bitrate _ _ heq
      exact .inr (.inl ⟨h1, h2⟩)
    · split at h
      · cases h
      · cases h
        exact .inr (.inr (by simp))

theorem retrying_heard {env : Env} (hp : Prompt env) (hq : Quiet env) (fuel : Nat) (bitrate : Option Int) (line : List Byte) (hc : CR ∉ line)
    (n : Nat) : ∀ p p' : Port, p.connected = false ∨ (Ready (bitrate.getD 1000000) p ∧ p.inbuf = []) ∨ p.inits.getLast? = some false →
      retrying env fuel bitrate ((rawOps env).write (line ++ [CR])) n p = (.ok (), p') →
      Heard (bitrate.getD 1000000) line p' ∨ p'.inits.getLast? = some false := by
  induction n with
  | zero => intro p p' _ h; cases h
  | succ n ih =>
    intro p p' hr h
    simp only [retrying, PyM.tryCatch] at h
    split at h
    · rename_i u p1 heq
      cases h
      have hi := write_inits env (line ++ [CR]) p
      rw [heq] at hi
      rcases hr with hr | hr | hr
      · exact .inl (write_heard hc (fun hcon => by rw [hr] at hcon; cases hcon) heq)
      · exact .inl (write_heard hc (fun _ => hr) heq)
      · exact .inr (hi ▸ hr)
    · split at h
      · cases h
      · obtain ⟨_, p2, h1, h2⟩ := bind_ok h
        exact ih p2 p' (retry_spec hp hq fuel bitrate _ _ h1) h2

/-- C103 if the last of the initialisations that writing the line needed did not fail. (Missing: that it fails, `C103_counterexample`.) -/
theorem C103_partial (env : Env) (hp : Prompt env) (hq : Quiet env) (fuel : Nat) (bitrate : Option Int) (line : List Byte) (hc : CR ∉ line)
    (p p' : Port) (hr : Ready (bitrate.getD 1000000) p) (hi : p.inbuf = [])
    (h : (retryOps env fuel bitrate).write (line ++ [CR]) p = (.ok (), p')) (hlast : p'.inits.getLast? ≠ some false) :
    Heard (bitrate.getD 1000000) line p' :=
  (retrying_heard hp hq fuel bitrate line hc fuel p p' (.inr (.inl ⟨hr, hi⟩)) h).resolve_right hlast

theorem retrying_back {env : Env} (hp : Prompt env) (bitrate : Option Int) (code : Nat) (hcode : speedCodes.lookup (bitrate.getD 1000000) = some code)
    (ho : Obliging env code) (fuel : Nat) (hfuel : 1 < fuel) (line : List Byte) (hc : CR ∉ line) (T : Nat) (hT : ∀ t, T ≤ t → (env.reopen t).isSome = true)
    (n : Nat) : ∀ p : Port, p.connected = false → T + 1 < p.tick + n → 1 < n →
      ∃ p', retrying env fuel bitrate ((rawOps env).write (line ++ [CR])) n p = (.ok (), p') ∧ p'.inits.getLast? = some true := by
  have hinit : ∀ q, initAdapter env (rawOps env) fuel bitrate q = initAdapter env (rawOps env) fuel (some (bitrate.getD 1000000)) q := by
    intro q; cases bitrate <;> rfl
  induction n with
  | zero => intro p _ _ h; omega
  | succ n ih =>
    intro p hcon hn h1
    have hw : (rawOps env).write (line ++ [CR]) p = (.error .runtimeError, advance env p) := by
      simp only [rawOps, if_pos hcon]
    simp only [retrying, PyM.tryCatch, hw, if_neg (show ¬ Err.runtimeError = Err.diverge by decide), PyM.bind]
    obtain ⟨q, hq⟩ : ∃ q, q = ({ advance env (advance env p) with connected := false } : Port) := ⟨_, rfl⟩
    have hqt : q.tick = p.tick + 2 := by rw [hq]; rfl
    have hr : ∀ x, x = retry env fuel bitrate (advance env p) → x = (match env.reopen q.tick with
        | none => (.ok (), advance env q)
        | some (isOpen, speed, inbuf) =>
          match initAdapter env (rawOps env) fuel bitrate { q with
            tick := q.tick + 1, connected := true, buf := [], owed := [], inbuf := inbuf, isOpen := isOpen, speed := speed } with
          | (.ok _, p) => (.ok (), { p with inits := p.inits ++ [true] })
          | (.error e, p) => if e = .diverge then (.error e, p) else (.ok (), { p with inits := p.inits ++ [false] })) := by
      intro x hx; rw [hx, hq]; rfl
    rw [hr _ rfl]
    cases hre : env.reopen q.tick with
    | none =>
      have hlt : q.tick < T := by
        apply Nat.lt_of_not_le
        intro hle
        have := hT _ hle
        rw [hre] at this
        cases this
      have hcq : (advance env q).connected = false := by rw [hq]; rfl
      have htq : (advance env q).tick = p.tick + 3 := by
        show q.tick + 1 = _
        rw [hqt]
      exact ih (advance env q) hcq (by rw [htq]; omega) (by omega)
    | some x =>
      obtain ⟨isOpen, speed, inbuf⟩ := x
      obtain ⟨p', e1, e2, -⟩ := C102_success env hp (bitrate.getD 1000000) code hcode ho fuel
        { q with tick := q.tick + 1, connected := true, buf := [], owed := [], inbuf := inbuf, isOpen := isOpen, speed := speed } rfl (by simpa using hfuel)
      simp only [hinit, e1]
      obtain ⟨p2, w1, -⟩ := write_total hp ho.1 ho.2.1 line hc { p' with inits := p'.inits ++ [true] } e2
      have w1' : (rawOps env).write (line ++ [CR]) { p' with inits := p'.inits ++ [true] } = (.ok (), p2) := w1
      have hi := write_inits env (line ++ [CR]) { p' with inits := p'.inits ++ [true] }
      cases n with
      | zero => omega
      | succ n =>
        refine ⟨p2, ?_, ?_⟩
        · simp only [retrying, PyM.tryCatch, w1']
        · rw [w1'] at hi
          rw [hi]; simp

/-- C103, the other way round: the port has been closed, and from some time on it can be opened again, and the adapter is obliging. Then writing the line returns, and the adapter
has got it with its channel open at the bit rate. -/
theorem C103_back (env : Env) (hp : Prompt env) (bitrate : Option Int) (code : Nat) (hcode : speedCodes.lookup (bitrate.getD 1000000) = some code)
    (ho : Obliging env code) (line : List Byte) (hc : CR ∉ line) (T : Nat) (hT : ∀ t, T ≤ t → (env.reopen t).isSome = true) (p : Port)
    (hcon : p.connected = false) (fuel : Nat) (hfuel : T + 1 < fuel) :
    ∃ p', (retryOps env fuel bitrate).write (line ++ [CR]) p = (.ok (), p') ∧ Heard (bitrate.getD 1000000) line p' := by
  obtain ⟨p', h1, h2⟩ := retrying_back hp bitrate code hcode ho fuel (by omega) line hc T hT fuel p hcon (by omega) (by omega)
  refine ⟨p', h1, (retrying_heard hp (fun t o => by simp [ho.1]) fuel bitrate line hc fuel p p' (.inl hcon) h1).resolve_right ?_⟩
  rw [h2]; exact fun h => nomatch h

/-- An adapter that is plugged out and in again, and does not answer. -/
def replugged : Env := { good with
  react := fun _ _ => .mute false
  fails := fun t => decide (t = 0)
  reopen := fun _ => some (false, none, []) }

/-- The state of an adapter that is ready. -/
def readyPort : Port := { isOpen := true, speed := some 1000000 }

/-- The initialisation of the adapter that has been plugged in again fails; the exception is only logged, and the frame is written to an adapter
whose channel is closed. -/
theorem C103_counterexample : ¬ C103_statement := by
  intro h
  have key : ((retryOps replugged 20 none).write ([ch 't', ch '1', ch '2', ch '3', ch '0'] ++ [CR]) readyPort).1.isOk = true ∧
      ((retryOps replugged 20 none).write ([ch 't', ch '1', ch '2', ch '3', ch '0'] ++ [CR]) readyPort).2.lines.getLast? =
        some ([ch 't', ch '1', ch '2', ch '3', ch '0'], false, none) := by decide +kernel
  cases hr : (retryOps replugged 20 none).write ([ch 't', ch '1', ch '2', ch '3', ch '0'] ++ [CR]) readyPort with
  | mk r p' =>
    rw [hr] at key
    cases r with
    | error e => cases key.1
    | ok u =>
      obtain ⟨r, h1, -⟩ := h replugged 20 none _ readyPort p' (fun _ => rfl) (fun _ _ => ⟨by simp [replugged, good], by simp [replugged, good]⟩)
        (by decide +kernel) ⟨rfl, 1000000, rfl, rfl⟩ rfl hr
      rw [key.2] at h1
      cases h1

/-- The partial theorem is about something: the port fails in the middle of the line, the first attempt to open it again fails too, the second one
finds an adapter with its channel closed. -/
def replugged' : Env := { good with
  fails := fun t => decide (t = 0)
  written := fun _ => 3
  reopen := fun t => if t < 5 then none else some (false, none, [ch 'x']) }

example : ((retryOps replugged' 20 none).write ([ch 't', ch '1', ch '2', ch '3', ch '0'] ++ [CR]) readyPort).1.isOk = true ∧
    ((retryOps replugged' 20 none).write ([ch 't', ch '1', ch '2', ch '3', ch '0'] ++ [CR]) readyPort).2.inits = [true] := by decide +kernel

/-- So is `C103_back`: the port can be opened from the fifth operation on. -/
def awaited : Env := { good with reopen := fun t => if t < 5 then none else some (false, none, [ch 'x']) }

example : Prompt awaited ∧ Obliging awaited 8 ∧ ∀ t, 5 ≤ t → (awaited.reopen t).isSome = true :=
  ⟨fun _ => rfl, ⟨fun _ _ => rfl, fun _ => rfl, fun _ => ⟨rfl, rfl⟩⟩, fun t h => by simp only [awaited, if_neg (Nat.not_lt.2 h)]; rfl⟩

example : ((retryOps awaited 20 none).write ([ch 't', ch '1', ch '2', ch '3', ch '0'] ++ [CR]) { connected := false }).2.lines.getLast? =
    some ([ch 't', ch '1', ch '2', ch '3', ch '0'], true, some 1000000) := by decide +kernel

end SlcanInit
end Dronecan
