import Verif.Model.SocketReceive
import Verif.Props.Packet
import Verif.Props.Writer

/-!
# Reception by the SocketCAN driver (C109) and the time stamps of the frames (C110)
-/

namespace Dronecan
namespace SocketReceive
open Can

/-! ## Specification -/

/-- A message that the kernel passes on, after linux/can.h (error messages are passed on only on request). -/
structure Kernel where
  id : Nat
  extended : Bool
  /-- a remote transmission request: it has no data, only a length -/
  remote : Bool
  fd : Bool
  data : List Byte
  /-- what follows the data in the array -/
  fill : List Byte
  /-- the bytes between the length and the array -/
  flags : Byte
  res0 : Byte
  res1 : Byte

/-- The limits of CAN. -/
structure Kernel.Legal (m : Kernel) : Prop where
  id : m.id < if m.extended then 2 ^ 29 else 2 ^ 11
  remote : m.fd = true → m.remote = false
  size : m.data.length + m.fill.length = if m.fd then 64 else 8

/-- The four bytes of `can_id`. -/
def Kernel.word (m : Kernel) : Nat := m.id + (if m.remote then 2 ^ 30 else 0) + (if m.extended then 2 ^ 31 else 0)

/-- The struct `can_frame` or `canfd_frame`, on a machine of the given byte order. -/
def Kernel.bytes (be : Bool) (m : Kernel) : List Byte :=
  let word := [0, 1, 2, 3].map fun i => BitVec.ofNat 8 (m.word / 256 ^ i)
  (if be then word.reverse else word) ++ [BitVec.ofNat 8 m.data.length, m.flags, m.res0, m.res1] ++ m.data ++ m.fill

/-- The frame. -/
def Kernel.frame (m : Kernel) : CANFrame := ⟨m.id, m.data, m.extended, m.fd⟩

/-- The frames that `receive` has returned. -/
def returned (tr : List Ev) : List CANFrame := tr.filterMap fun
  | .returned f _ _ => some f
  | _ => none

/-- The frames with which the hooks have been called. -/
def hooked (tr : List Ev) : List CANFrame := tr.filterMap fun
  | .hook f => some f
  | _ => none

/-- What has been read from the socket. -/
def taken (tr : List Ev) : List Incoming := tr.filterMap fun
  | .taken m => some m
  | _ => none

/-- How the calls that have read something ended: with a frame, or with an exception. -/
def results (tr : List Ev) : List (Option CANFrame) := tr.filterMap fun
  | .returned f _ _ => some (some f)
  | .raised => some none
  | _ => none

/-- The readings of the monotonic clock in a history. -/
def monos (steps : List Step) : List Rat := steps.filterMap fun
  | .receive _ c _ => some c.mono
  | _ => none

/-- `time.monotonic()` never goes backwards. -/
def Monotonic (steps : List Step) : Prop := (monos steps).Pairwise (· ≤ ·)

/-- What arrives, when it consists of messages of the kernel. -/
def arrivals (be : Bool) (bus : List (Int × Kernel × Option Rat)) : List (Int × Incoming) :=
  bus.map fun x => (x.1, .message (x.2.1.bytes be) x.2.2)

/-- C109: whatever arrives, and whatever the two threads do, the frames returned are the data frames that arrived up to some point, in order; the
rest is still to be read. -/
def C109_statement : Prop :=
  ∀ (be : Bool) (bus : List (Int × Kernel × Option Rat)) (steps : List Step), (∀ x ∈ bus, x.2.1.Legal) → Monotonic steps →
    ∃ n, (run be (arrivals be bus) steps).incoming = (arrivals be bus).drop n ∧
      returned (run be (arrivals be bus) steps).trace =
        ((bus.take n).filter fun x => !x.2.1.remote).map fun x => x.2.1.frame

/-- The events of a call of `receive` in state `s`. -/
def calls (be : Bool) (timeout : Option Int) (c late : Clocks) (s : State) : List Ev :=
  (receive be timeout c late s).trace.drop s.trace.length

/-- C110: a frame with a time stamp of the kernel gets the monotonic time at which it arrived, up to a microsecond: the reading of the clock, less
the age of the frame. -/
def C110_statement : Prop :=
  ∀ (be : Bool) (incoming : List (Int × Incoming)) (steps : List Step) (timeout : Option Int) (c late : Clocks) (f : CANFrame) (mono real : Rat),
    Monotonic (steps ++ [.receive timeout c late]) → (∀ x ∈ incoming, ∃ bytes v, 0 < v ∧ x.2 = .message bytes (some v)) →
    .returned f mono real ∈ calls be timeout c late (run be incoming steps) → mono ≠ late.mono →
    (mono - (c.mono - (c.real - real))).abs ≤ 1 / 1000000

/-! ## Time stamps -/

theorem resolve_none (r : Timestamps.Resolver) (x y : Rat) :
    Timestamps.resolve none r x y = (.ok x, ⟨some x, x, y⟩) := by
  unfold Timestamps.resolve
  split
  · rename_i h; cases h
  · rfl

/-- The reference of the estimator is a pair of readings. -/
def Refers (est : Timestamps.Estimator) (past : List Clocks) : Prop := ∀ p q, est.pq = some (p, q) → (⟨p, q⟩ : Clocks) ∈ past

/-- The end of `update`. -/
theorem estimate_spec (est : Timestamps.Estimator) (c : Clocks) (p q : Rat) (h : p ≤ c.mono)
    (hd : ((c.mono - p) - (c.real - q)).abs ≤ config.maxPhase) :
    ∃ t est', Timestamps.estimate config est p q c.mono c.real = (.ok t, est') ∧
      (est'.pq = some (c.mono, c.real) ∨ est'.pq = some (p, q)) ∧
      t ≤ c.real + config.fixedDelay ∧ c.real - config.maxPhase + config.fixedDelay ≤ t ∧
      (c.real - q ≤ (1 + config.rate) * (c.mono - p) → t = c.real + config.fixedDelay) := by
  have hm : 0 ≤ c.mono - p := by grind
  have hup : 0 ≤ config.rate * (c.mono - p) := Rat.mul_nonneg (by decide +kernel) hm
  have h1 : -config.maxPhase ≤ (c.mono - p) - (c.real - q) := by
    have h2 := Rat.neg_le_neg hd
    have h3 : -((c.mono - p) - (c.real - q)).abs ≤ (c.mono - p) - (c.real - q) := by
      unfold Rat.abs
      split <;> grind
    exact Rat.le_trans h2 h3
  have hM : 0 ≤ config.maxPhase := by decide +kernel
  unfold Timestamps.estimate
  rw [if_neg (by grind)]
  dsimp only
  split
  · exact ⟨_, _, rfl, .inl rfl, by grind, by grind, by grind⟩
  · exact ⟨_, _, rfl, .inr rfl, by grind, by grind, by grind⟩

/-- What the estimator makes of a pair of readings. -/
theorem update_spec (est : Timestamps.Estimator) (c : Clocks) (h : ∀ p q, est.pq = some (p, q) → p ≤ c.mono) :
    ∃ t est', Timestamps.update config est c.mono c.real = (.ok t, est') ∧
      (est'.pq = some (c.mono, c.real) ∨ est'.pq = est.pq) ∧
      t ≤ c.real + config.fixedDelay ∧ c.real - config.maxPhase + config.fixedDelay ≤ t ∧
      ((∀ p q, est.pq = some (p, q) → c.real - q ≤ (1 + config.rate) * (c.mono - p)) → t = c.real + config.fixedDelay) := by
  have hM : 0 ≤ config.maxPhase := by decide +kernel
  have habs : ((c.mono - c.mono) - (c.real - c.real)).abs ≤ config.maxPhase := by
    have : (c.mono - c.mono) - (c.real - c.real) = 0 := by grind
    rw [this, Rat.abs_zero]
    exact hM
  have hp : config.period = none := rfl
  unfold Timestamps.update
  simp only [hp, resolve_none]
  cases hpq : est.pq with
  | none =>
    simp only [Option.getD_none]
    rw [if_neg (by grind)]
    obtain ⟨t, est', e1, e2, e3, e4, e5⟩ := estimate_spec { est with
        resolver := ⟨some c.mono, c.mono, c.real⟩
        delay := ((c.mono - c.mono) - (c.real - c.real)).abs } c c.mono c.real Rat.le_refl habs
    exact ⟨t, est', e1, .inl (by rcases e2 with e | e <;> exact e), e3, e4, fun _ => e5 (by grind)⟩
  | some pq =>
    obtain ⟨p, q⟩ := pq
    simp only [Option.getD_some]
    split
    · obtain ⟨t, est', e1, e2, e3, e4, e5⟩ := estimate_spec { est with
          resolver := ⟨some c.mono, c.mono, c.real⟩
          delay := ((c.mono - p) - (c.real - q)).abs
          resyncs := est.resyncs + 1 } c c.mono c.real Rat.le_refl habs
      exact ⟨t, est', e1, .inl (by rcases e2 with e | e <;> exact e), e3, e4, fun _ => e5 (by grind)⟩
    · obtain ⟨t, est', e1, e2, e3, e4, e5⟩ := estimate_spec { est with
          resolver := ⟨some c.mono, c.mono, c.real⟩
          delay := ((c.mono - p) - (c.real - q)).abs } c p q (h p q hpq) (by grind)
      exact ⟨t, est', e1, e2, e3, e4, fun hh => e5 (hh p q rfl)⟩

/-- `_convert_real_to_monotonic`. -/
theorem convert_spec (est : Timestamps.Estimator) (past : List Clocks) (c : Clocks) (v : Rat) (hr : Refers est past)
    (h : ∀ k ∈ past, k.mono ≤ c.mono) :
    ∃ t est', convert est c v = (.ok t, est') ∧ Refers est' (past ++ [c]) ∧
      c.mono - (c.real - v) - 1 / 1000000 ≤ t ∧ t ≤ c.mono - (c.real - v) + 50 / 1000 - 1 / 1000000 ∧
      ((∀ k ∈ past, c.real - k.real ≤ (1 + 100 / 1000000) * (c.mono - k.mono)) → t = c.mono - (c.real - v) - 1 / 1000000) := by
  obtain ⟨t, est', e1, e2, e3, e4, e5⟩ := update_spec est c (fun p q hpq => h _ (hr p q hpq))
  have d : config.fixedDelay = 1 / 1000000 := rfl
  have m : config.maxPhase = 50 / 1000 := rfl
  have r : config.rate = 100 / 1000000 := rfl
  rw [← d, ← m, ← r]
  refine ⟨v - (t - c.mono), est', by simp only [convert, e1], ?_, by grind, by grind, ?_⟩
  · intro p q hpq
    rcases e2 with e2 | e2
    · rw [e2] at hpq
      simp only [Option.some.injEq, Prod.mk.injEq] at hpq
      simp [← hpq.1, ← hpq.2]
    · rw [e2] at hpq
      exact List.mem_append_left _ (hr p q hpq)
  · intro hh
    have := e5 (fun p q hpq => hh _ (hr p q hpq))
    grind

/-! ## Messages of the kernel -/

/-- The driver understands every message of the kernel, and does not see that one is a remote transmission request. -/
theorem parse_kernel (be : Bool) (m : Kernel) (h : m.Legal) : Packet.socketParse be (m.bytes be) = .ok m.frame := by
  have hid : m.id < 2 ^ 29 := by
    have := h.id
    split at this <;> omega
  have hsize := h.size
  obtain ⟨w0, w1, w2, w3, hw⟩ : ∃ a b c d : Byte, [0, 1, 2, 3].map (fun i => BitVec.ofNat 8 (m.word / 256 ^ i)) = [a, b, c, d] :=
    ⟨_, _, _, _, rfl⟩
  have hword : unpackLE [w0, w1, w2, w3] = m.word := by
    have hlt : m.word < 256 ^ 4 := by
      unfold Kernel.word
      split <;> split <;> omega
    have hp : packLE 4 m.word = [w0, w1, w2, w3] := by
      rw [← hw]
      simp only [packLE, List.map_cons, List.map_nil, Nat.pow_zero, Nat.div_one, Nat.pow_succ, Nat.one_mul, Nat.div_div_eq_div_mul]
    rw [← hp, unpackLE_packLE_lt 4 m.word hlt]
  have hmask : m.word &&& 0x1FFFFFFF = m.id := by
    rw [show 0x1FFFFFFF = 2 ^ 29 - 1 from rfl, Nat.and_two_pow_sub_one_eq_mod]
    unfold Kernel.word
    split <;> split <;> omega
  have hbit : m.word.testBit 31 = m.extended := by
    rw [Nat.testBit_eq_decide_div_mod_eq]
    unfold Kernel.word
    cases m.extended <;> simp <;> split <;> omega
  have hlen : unpackLE [BitVec.ofNat 8 m.data.length] = m.data.length := by
    simp only [unpackLE, BitVec.toNat_ofNat]
    split at hsize <;> omega
  obtain ⟨a, b, c, d, ha, hn⟩ : ∃ a b c d : Byte, (if be then [w0, w1, w2, w3].reverse else [w0, w1, w2, w3]) = [a, b, c, d] ∧
      Packet.native be [a, b, c, d] = [w0, w1, w2, w3] := by
    cases be
    · exact ⟨_, _, _, _, rfl, rfl⟩
    · exact ⟨w3, w2, w1, w0, rfl, rfl⟩
  have hb : m.bytes be = a :: b :: c :: d :: BitVec.ofNat 8 m.data.length :: m.flags :: m.res0 :: m.res1 :: (m.data ++ m.fill) := by
    unfold Kernel.bytes
    dsimp only
    rw [hw, ha]
    simp
  have hl : (m.bytes be).length = if m.fd then 72 else 16 := by
    rw [hb]
    simp only [List.length_cons, List.length_append]
    split at hsize <;> simp_all
  unfold Packet.socketParse
  dsimp only
  rw [List.take_of_length_le (by rw [hl]; split <;> omega), hl, hb]
  simp only [List.take_succ_cons, List.take_zero, List.drop_succ_cons, List.drop_zero, hn, hword, hlen, hmask, hbit, List.take_left']
  unfold Kernel.frame
  cases hfd : m.fd <;> simp

/-! ## One call -/

/-- How the call ends that has read `m`. -/
def outcome (be : Bool) : Incoming → Option CANFrame
  | .error _ => none
  | .message bytes _ => (Packet.socketParse be bytes).toOption

/-- The events of a call that has read `m`. -/
theorem deliver_spec (be : Bool) (c late : Clocks) (m : Incoming) (s : State) (past : List Clocks) (hr : Refers s.est past)
    (h : ∀ k ∈ past, k.mono ≤ c.mono) :
    ∃ est', Refers est' (past ++ [c]) ∧
      ((outcome be m = none ∧ deliver be c late m s = emit .raised { s with est := est' }) ∨
       ∃ f mono real, outcome be m = some f ∧ deliver be c late m s = emit (.returned f mono real) (emit (.hook f) { s with est := est' }) ∧
        ∃ bytes stamp, m = .message bytes stamp ∧
          ((stamp = none ∨ stamp = some 0) ∧ mono = late.mono ∧ real = late.real ∨
           ∃ v t, stamp = some v ∧ v ≠ 0 ∧ real = v ∧ mono = orElse (some t) late.mono ∧
            c.mono - (c.real - v) - 1 / 1000000 ≤ t ∧ t ≤ c.mono - (c.real - v) + 50 / 1000 - 1 / 1000000 ∧
            ((∀ k ∈ past, c.real - k.real ≤ (1 + 100 / 1000000) * (c.mono - k.mono)) → t = c.mono - (c.real - v) - 1 / 1000000))) := by
  have hr' : Refers s.est (past ++ [c]) := fun p q hpq => List.mem_append_left _ (hr p q hpq)
  cases m with
  | error n => exact ⟨s.est, hr', .inl ⟨rfl, rfl⟩⟩
  | message bytes stamp =>
    cases hp : Packet.socketParse be bytes with
    | error e => exact ⟨s.est, hr', .inl ⟨by simp [outcome, hp, Except.toOption], by simp only [deliver, hp]⟩⟩
    | ok f =>
      have ho : outcome be (.message bytes stamp) = some f := by simp [outcome, hp, Except.toOption]
      cases stamp with
      | none =>
        exact ⟨s.est, hr', .inr ⟨f, late.mono, late.real, ho, by simp only [deliver, hp, Option.filter_none, orElse], bytes, none, rfl,
          .inl ⟨.inl rfl, rfl, rfl⟩⟩⟩
      | some v =>
        by_cases hv : v = 0
        · subst hv
          exact ⟨s.est, hr', .inr ⟨f, late.mono, late.real, ho, by simp [deliver, hp, orElse, Option.filter], bytes, some 0, rfl,
            .inl ⟨.inr rfl, rfl, rfl⟩⟩⟩
        · obtain ⟨t, est', e1, e2, e3⟩ := convert_spec s.est past c v hr h
          exact ⟨est', e2, .inr ⟨f, orElse (some t) late.mono, v, ho, by simp [deliver, hp, Option.filter, hv, e1], bytes, some v, rfl,
            .inr ⟨v, t, rfl, hv, rfl, rfl, e3⟩⟩⟩

/-- What a call of `receive` does. -/
theorem receive_cases (be : Bool) (timeout : Option Int) (c late : Clocks) (s : State) :
    ((Writer.check s.w).2 = true ∧ receive be timeout c late s = { s with w := (Writer.check s.w).1 }) ∨
    ((Writer.check s.w).2 = false ∧ s.w.stop = true ∧
      receive be timeout c late s = emit .badSocket { s with w := (Writer.check s.w).1 }) ∨
    ((Writer.check s.w).2 = false ∧ s.w.stop = false ∧ limit timeout = none ∧ s.incoming = [] ∧
      receive be timeout c late s = { s with
        w := (Writer.check s.w).1
        stuck := true }) ∨
    ((Writer.check s.w).2 = false ∧ s.w.stop = false ∧ ∃ d, limit timeout = some d ∧ (∀ x, s.incoming.head? = some x → s.now + d < x.1) ∧
      receive be timeout c late s = emit (.nothing (s.now + d)) { s with
        w := (Writer.check s.w).1
        now := s.now + d }) ∨
    ((Writer.check s.w).2 = false ∧ s.w.stop = false ∧ ∃ t m rest, s.incoming = (t, m) :: rest ∧
      (∀ d, limit timeout = some d → t ≤ s.now + d) ∧
      receive be timeout c late s = deliver be c late m (emit (.taken m) { s with
        w := (Writer.check s.w).1
        now := max s.now t
        incoming := rest })) := by
  have hstop : (Writer.check s.w).1.stop = s.w.stop := by
    rcases Writer.check_spec s.w with ⟨_, h⟩ | h
    · rw [h]
    · unfold Writer.check
      split <;> rfl
  unfold receive
  rcases hc : Writer.check s.w with ⟨w, b⟩
  rw [hc] at hstop
  cases b with
  | true => exact .inl ⟨rfl, rfl⟩
  | false =>
    dsimp only at hstop ⊢
    cases hs : s.w.stop with
    | true =>
      rw [hs] at hstop
      exact .inr (.inl ⟨rfl, rfl, by simp only [hstop, if_true]⟩)
    | false =>
      rw [hs] at hstop
      rw [hstop]
      simp only [Bool.false_eq_true, if_false]
      right; right
      cases hi : s.incoming with
      | nil =>
        cases hl : limit timeout with
        | none => exact .inl ⟨trivial, trivial, rfl, rfl, rfl⟩
        | some d => exact .inr (.inl ⟨trivial, trivial, d, rfl, by simp, rfl⟩)
      | cons x rest =>
        obtain ⟨t, m⟩ := x
        right
        cases hl : limit timeout with
        | none =>
          right
          exact ⟨trivial, trivial, t, m, rest, rfl, by simp, by simp⟩
        | some d =>
          by_cases hd : t ≤ s.now + d
          · right
            exact ⟨trivial, trivial, t, m, rest, rfl, by simpa using hd, by simp [hd]⟩
          · left
            exact ⟨trivial, trivial, d, rfl, by simpa using hd, by simp [hd]⟩

/-! ## Histories -/

/-- The readings of the clocks in a history. -/
def clocks (steps : List Step) : List Clocks := steps.filterMap fun
  | .receive _ c _ => some c
  | _ => none

theorem monos_eq (steps : List Step) : monos steps = (clocks steps).map (·.mono) := by
  unfold monos clocks
  rw [List.map_filterMap]
  congr 1
  funext st
  cases st <;> rfl

theorem clocks_append (a b : List Step) : clocks (a ++ b) = clocks a ++ clocks b := List.filterMap_append

/-- The state after the readings `past`; `inc` is what arrives in all. -/
structure Inv (be : Bool) (inc : List (Int × Incoming)) (past : List Clocks) (s : State) : Prop where
  read : ∃ n, s.incoming = inc.drop n ∧ taken s.trace = (inc.take n).map (·.2) ∧ results s.trace = (inc.take n).map fun x => outcome be x.2
  hooks : hooked s.trace = returned s.trace
  est : Refers s.est past

theorem Inv.past {be inc past past' s} (h : Inv be inc past s) (hp : ∀ k ∈ past, k ∈ past') : Inv be inc past' s :=
  ⟨h.read, h.hooks, fun p q e => hp _ (h.est p q e)⟩

theorem receive_inv (be : Bool) (inc : List (Int × Incoming)) (past : List Clocks) (s : State) (hi : Inv be inc past s)
    (timeout : Option Int) (c late : Clocks) (h : ∀ k ∈ past, k.mono ≤ c.mono) :
    Inv be inc (past ++ [c]) (receive be timeout c late s) := by
  have hp : ∀ k ∈ past, k ∈ past ++ [c] := fun k hk => List.mem_append_left _ hk
  have hi' := hi.past hp
  obtain ⟨n, r1, r2, r3⟩ := hi'.read
  rcases receive_cases be timeout c late s with ⟨_, e⟩ | ⟨_, _, e⟩ | ⟨_, _, _, _, e⟩ | ⟨_, _, d, _, _, e⟩ | ⟨_, _, t, m, rest, e1, _, e⟩
  · rw [e]; exact ⟨hi'.read, hi'.hooks, hi'.est⟩
  · rw [e]
    exact ⟨⟨n, r1, by simp [emit, taken, ← r2], by simp [emit, results, ← r3]⟩, by have := hi'.hooks; simp_all [emit, hooked, returned], hi'.est⟩
  · rw [e]; exact ⟨hi'.read, hi'.hooks, hi'.est⟩
  · rw [e]
    exact ⟨⟨n, r1, by simp [emit, taken, ← r2], by simp [emit, results, ← r3]⟩, by have := hi'.hooks; simp_all [emit, hooked, returned], hi'.est⟩
  · have hd : inc.drop n = (t, m) :: rest := by rw [← r1, e1]
    have hn : n < inc.length := by
      have := congrArg List.length hd
      simp at this
      omega
    have hx : inc[n] = (t, m) := by
      have := List.drop_eq_getElem_cons hn
      rw [hd] at this
      injection this with h1 h2
      exact h1.symm
    have htake : inc.take (n + 1) = inc.take n ++ [(t, m)] := by rw [List.take_succ_eq_append_getElem hn, hx]
    have hrest : rest = inc.drop (n + 1) := by
      have := List.drop_eq_getElem_cons hn
      rw [hd] at this
      injection this
    rw [e]
    obtain ⟨q, hq⟩ : ∃ q, q = emit (.taken m) { s with
        w := (Writer.check s.w).1
        now := max s.now t
        incoming := rest } := ⟨_, rfl⟩
    rw [← hq]
    have q1 : q.incoming = inc.drop (n + 1) := by rw [hq, ← hrest]; rfl
    have q2 : taken q.trace = (inc.take (n + 1)).map (·.2) := by
      rw [htake, List.map_append, ← r2, hq]
      simp [emit, taken]
    have q3 : results q.trace = (inc.take n).map fun x => outcome be x.2 := by
      rw [← r3, hq]
      simp [emit, results]
    have q4 : hooked q.trace = returned q.trace := by
      have := hi'.hooks
      rw [hq]
      simp_all [emit, hooked, returned]
    have q5 : q.est = s.est := by rw [hq]; rfl
    obtain ⟨est', d1, d2⟩ := deliver_spec be c late m q past (by rw [q5]; exact hi.est) h
    rcases d2 with ⟨d2, d3⟩ | ⟨f, mono, real, d2, d3, _⟩
    · rw [d3]
      refine ⟨⟨n + 1, q1, ?_, ?_⟩, ?_, d1⟩
      · rw [← q2]; simp [emit, taken]
      · rw [htake, List.map_append, ← q3]; simp [emit, results, d2]
      · simp_all [emit, hooked, returned]
    · rw [d3]
      refine ⟨⟨n + 1, q1, ?_, ?_⟩, ?_, d1⟩
      · rw [← q2]; simp [emit, taken]
      · rw [htake, List.map_append, ← q3]; simp [emit, results, d2]
      · simp_all [emit, hooked, returned]

theorem step_inv (be : Bool) (inc : List (Int × Incoming)) (past : List Clocks) (s : State) (hi : Inv be inc past s) (st : Step)
    (h : ∀ k ∈ past, ∀ c ∈ clocks [st], k.mono ≤ c.mono) : Inv be inc (past ++ clocks [st]) (step be s st) := by
  have hp : ∀ k ∈ past, k ∈ past ++ clocks [st] := fun k hk => List.mem_append_left _ hk
  unfold step
  split
  · exact hi.past hp
  · cases st with
    | other st => exact ⟨(hi.past hp).read, hi.hooks, (hi.past hp).est⟩
    | receive timeout c late => exact receive_inv be inc past s hi timeout c late (fun k hk => h k hk c (by simp [clocks]))
    | wait d => exact ⟨(hi.past hp).read, hi.hooks, (hi.past hp).est⟩

theorem run_inv (be : Bool) (inc : List (Int × Incoming)) (steps : List Step) (h : Monotonic steps) :
    Inv be inc (clocks steps) (run be inc steps) := by
  unfold Monotonic at h
  rw [monos_eq] at h
  have main : ∀ (steps : List Step) (past : List Clocks) (s : State), ((past ++ clocks steps).map (·.mono)).Pairwise (· ≤ ·) →
      Inv be inc past s → Inv be inc (past ++ clocks steps) (steps.foldl (step be) s) := by
    intro steps
    induction steps with
    | nil =>
      intro past s _ hi
      simpa [clocks] using hi
    | cons st steps ih =>
      intro past s hp hi
      have e : clocks (st :: steps) = clocks [st] ++ clocks steps := clocks_append [st] steps
      rw [e, ← List.append_assoc] at hp ⊢
      refine ih _ _ hp (step_inv be inc past s hi st ?_)
      rw [List.map_append, List.map_append] at hp
      intro k hk c hc
      exact (List.pairwise_append.1 (List.pairwise_append.1 hp).1).2.2 _ (List.mem_map_of_mem hk) _ (List.mem_map_of_mem hc)
  have := main steps [] { incoming := inc } (by simpa using h) ⟨⟨0, by simp, by simp [taken], by simp [results]⟩, rfl, by
    intro p q e
    cases e⟩
  rw [List.nil_append] at this
  exact this

/-- The frames returned are among the results. -/
theorem returned_results (tr : List Ev) : returned tr = (results tr).filterMap id := by
  unfold returned results
  rw [List.filterMap_filterMap]
  congr 1
  funext e
  cases e <;> rfl

/-! ## C109 -/

/-- Whatever arrives: each call that reads something returns the frame it stands for or raises, in the order of arrival; the hooks are called for the
frames returned. -/
theorem C109_order (be : Bool) (inc : List (Int × Incoming)) (steps : List Step) (h : Monotonic steps) :
    let s := run be inc steps
    ∃ n, s.incoming = inc.drop n ∧ taken s.trace = (inc.take n).map (·.2) ∧
      results s.trace = ((inc.take n).map fun x => match x.2 with
        | .error _ => none
        | .message bytes _ => (Packet.socketParse be bytes).toOption) ∧
      hooked s.trace = returned s.trace := by
  obtain ⟨⟨n, h1, h2, h3⟩, h4, _⟩ := run_inv be inc steps h
  refine ⟨n, h1, h2, ?_, h4⟩
  rw [h3]
  congr 1

/-- Messages of the kernel: all are returned, in order, as data frames. -/
theorem C109_kernel (be : Bool) (bus : List (Int × Kernel × Option Rat)) (steps : List Step) (hb : ∀ x ∈ bus, x.2.1.Legal) (h : Monotonic steps) :
    ∃ n, (run be (arrivals be bus) steps).incoming = (arrivals be bus).drop n ∧
      returned (run be (arrivals be bus) steps).trace = (bus.take n).map fun x => x.2.1.frame := by
  obtain ⟨⟨n, h1, h2, h3⟩, _, _⟩ := run_inv be (arrivals be bus) steps h
  refine ⟨n, h1, ?_⟩
  rw [returned_results, h3]
  unfold arrivals
  rw [← List.map_take, List.map_map, List.filterMap_map, ← List.filterMap_eq_map]
  apply Writer.filterMap_same
  intro x hx
  have := parse_kernel be x.2.1 (hb x (List.mem_of_mem_take hx))
  simp [outcome, this, Except.toOption]

/-- The statement, if no remote transmission requests arrive. -/
theorem C109_partial (be : Bool) (bus : List (Int × Kernel × Option Rat)) (steps : List Step) (hb : ∀ x ∈ bus, x.2.1.Legal) (h : Monotonic steps)
    (hr : ∀ x ∈ bus, x.2.1.remote = false) :
    ∃ n, (run be (arrivals be bus) steps).incoming = (arrivals be bus).drop n ∧
      returned (run be (arrivals be bus) steps).trace =
        ((bus.take n).filter fun x => !x.2.1.remote).map fun x => x.2.1.frame := by
  obtain ⟨n, h1, h2⟩ := C109_kernel be bus steps hb h
  refine ⟨n, h1, ?_⟩
  rw [h2, List.filter_eq_self.2]
  intro x hx
  simp [hr x (List.mem_of_mem_take hx)]

/-- A remote transmission request of 8 bytes. -/
def request : Kernel where
  id := 0x123
  extended := false
  remote := true
  fd := false
  data := List.replicate 8 0
  fill := []
  flags := 0
  res0 := 0
  res1 := 0

/-- Remote transmission requests are returned as data frames. -/
theorem C109_counterexample : ¬ C109_statement := by
  intro h
  have hs : Monotonic [.receive none ⟨0, 0⟩ ⟨0, 0⟩] := List.pairwise_singleton ..
  obtain ⟨n, h1, h2⟩ := h false [(0, request, none)] [.receive none ⟨0, 0⟩ ⟨0, 0⟩] (by
    intro x hx
    rw [List.mem_singleton] at hx
    subst hx
    exact ⟨by decide, by decide, by decide⟩) hs
  have e1 : returned (run false (arrivals false [(0, request, none)]) [.receive none ⟨0, 0⟩ ⟨0, 0⟩]).trace =
      [⟨0x123, List.replicate 8 0, false, false⟩] := by decide +kernel
  rw [e1] at h2
  have e2 : (([(0, request, none)] : List (Int × Kernel × Option Rat)).take n).filter (fun x => !x.2.1.remote) = [] := by
    rw [List.filter_eq_nil_iff]
    intro x hx
    have := List.mem_of_mem_take hx
    rw [List.mem_singleton] at this
    subst this
    decide
  rw [e2] at h2
  cases h2

/-- What comes from the writer thread is raised by the call, which then reads nothing. -/
def Undisturbed (s : State) : Prop := s.w.stop = false ∧ ∀ e rest, s.w.feedback ≠ .failed e :: rest

theorem Undisturbed.check {s : State} (h : Undisturbed s) : (Writer.check s.w).2 = false := by
  unfold Writer.check
  split
  · rfl
  · rename_i hf
    exact absurd hf (h.2 _ _)
  · rfl

theorem two (a b : Ev) (s : State) : (emit b (emit a s)).trace = s.trace ++ [a, b] := by
  simp [emit]

theorem trace_deliver (be : Bool) (c late : Clocks) (m : Incoming) (s : State) :
    (deliver be c late m s).now = s.now ∧ (deliver be c late m s).stuck = s.stuck ∧ ∃ evs, evs ≠ [] ∧
      (deliver be c late m s).trace = s.trace ++ evs ∧ ∀ e ∈ evs, e = .raised ∨ (∃ f, e = .hook f) ∨ ∃ f a b, e = .returned f a b := by
  unfold deliver
  split
  · exact ⟨rfl, rfl, [.raised], by simp, rfl, by simp⟩
  · split
    · exact ⟨rfl, rfl, [.raised], by simp, rfl, by simp⟩
    · rename_i f _
      split
      · exact ⟨rfl, rfl, _, by simp, two _ _ _, by simp⟩
      · split
        · exact ⟨rfl, rfl, [.raised], by simp, rfl, by simp⟩
        · exact ⟨rfl, rfl, _, by simp, two _ _ { s with est := _ }, by simp⟩

/-- `receive` with a timeout that is not negative: it reads the next message if that is there within the timeout, returns `None` only after the
timeout, and in any case not later than a millisecond after it. -/
theorem C109_timeout (be : Bool) (t : Int) (ht : 0 ≤ t) (c late : Clocks) (s : State) (hs : Undisturbed s) :
    let s' := receive be (some t) c late s
    s'.stuck = s.stuck ∧ s.now ≤ s'.now ∧
    ((∃ t', s.now + t ≤ t' ∧ t' < s.now + t + 1000 ∧ s'.now = t' ∧ s'.trace = s.trace ++ [.nothing t'] ∧ s'.incoming = s.incoming ∧
        ∀ x, s.incoming.head? = some x → s.now + t < x.1) ∨
     ∃ arrival m rest evs, s.incoming = (arrival, m) :: rest ∧ s'.incoming = rest ∧ s'.now = max s.now arrival ∧
        arrival < s.now + t + 1000 ∧ s'.trace = s.trace ++ .taken m :: evs ∧ evs ≠ []) := by
  have hl : limit (some t) = some ((t + 999) / 1000 * 1000) := by
    simp only [limit]
    rw [if_neg (by omega)]
  rcases receive_cases be (some t) c late s with ⟨e0, e⟩ | ⟨_, e0, e⟩ | ⟨_, _, e0, _, e⟩ | ⟨_, _, d, e0, e1, e⟩ | ⟨_, _, a, m, rest, e0, e1, e⟩
  · rw [hs.check] at e0; cases e0
  · rw [hs.1] at e0; cases e0
  · rw [hl] at e0; cases e0
  · rw [hl] at e0
    injection e0 with e0
    rw [e]
    refine ⟨rfl, by simp only [emit]; omega, .inl ⟨s.now + d, by omega, by omega, rfl, rfl, rfl, ?_⟩⟩
    intro x hx
    have := e1 x hx
    omega
  · have h1 := e1 _ hl
    rw [e]
    obtain ⟨d1, d2, evs, d3, d4, _⟩ := trace_deliver be c late m (emit (.taken m) { s with
        w := (Writer.check s.w).1
        now := max s.now a
        incoming := rest })
    refine ⟨d2, by rw [d1]; simp only [emit]; omega, .inr ⟨a, m, rest, evs, e0, ?_, d1, by omega, ?_, d3⟩⟩
    · unfold deliver
      split
      · rfl
      · split
        · rfl
        · split
          · rfl
          · split <;> rfl
    · rw [d4]
      simp [emit]

/-- `receive()` and `receive` with a negative timeout: they wait for the next message however long that takes, and never return `None`. -/
theorem C109_forever (be : Bool) (timeout : Option Int) (ht : ∀ t, timeout = some t → t < 0) (c late : Clocks) (s : State) (hs : Undisturbed s) :
    let s' := receive be timeout c late s
    (s.incoming = [] ∧ s'.stuck = true ∧ s'.trace = s.trace) ∨
    ∃ arrival m rest evs, s.incoming = (arrival, m) :: rest ∧ s'.stuck = s.stuck ∧ s'.now = max s.now arrival ∧
      s'.trace = s.trace ++ .taken m :: evs ∧ ∀ e ∈ evs, e = .raised ∨ (∃ f, e = .hook f) ∨ ∃ f a b, e = .returned f a b := by
  have hl : limit timeout = none := by
    cases timeout with
    | none => rfl
    | some t =>
      simp only [limit]
      rw [if_pos (ht t rfl)]
  rcases receive_cases be timeout c late s with ⟨e0, e⟩ | ⟨_, e0, e⟩ | ⟨_, _, e0, e1, e⟩ | ⟨_, _, d, e0, e1, e⟩ | ⟨_, _, a, m, rest, e0, e1, e⟩
  · rw [hs.check] at e0; cases e0
  · rw [hs.1] at e0; cases e0
  · rw [e]; exact .inl ⟨e1, rfl, rfl⟩
  · rw [hl] at e0; cases e0
  · rw [e]
    obtain ⟨d1, d2, evs, d3, d4, d5⟩ := trace_deliver be c late m (emit (.taken m) { s with
        w := (Writer.check s.w).1
        now := max s.now a
        incoming := rest })
    refine .inr ⟨a, m, rest, evs, e0, d2, d1, ?_, d5⟩
    rw [d4]
    simp [emit]

/-- A message that has arrived in the meantime is taken at once, whatever the timeout. -/
theorem C109_prompt (be : Bool) (d : Nat) (timeout : Option Int) (c late : Clocks) (s : State) (hs : Undisturbed s) (hf : s.stuck = false)
    (arrival : Int) (m : Incoming) (rest : List (Int × Incoming)) (hi : s.incoming = (arrival, m) :: rest) (ha : arrival ≤ s.now + d) :
    let s' := step be (step be s (.wait d)) (.receive timeout c late)
    s'.now = s.now + d ∧ ∃ evs, evs ≠ [] ∧ s'.trace = s.trace ++ .taken m :: evs := by
  have e1 : step be s (.wait d) = { s with now := s.now + d } := by simp [step, Step.isMain]
  have hl : ∀ x, limit timeout = some x → 0 ≤ x := by
    intro x hx
    cases timeout with
    | none => cases hx
    | some t =>
      simp only [limit] at hx
      split at hx
      · cases hx
      · injection hx with hx; omega
  intro s'
  have e2 : s' = receive be timeout c late { s with now := s.now + d } := by
    change step be (step be s (.wait d)) (.receive timeout c late) = _
    rw [e1]
    simp [step, hf]
  rw [e2]
  rcases receive_cases be timeout c late { s with now := s.now + d } with
    ⟨e0, _⟩ | ⟨_, e0, _⟩ | ⟨_, _, _, e0, _⟩ | ⟨_, _, x, e0, e1, _⟩ | ⟨_, _, a, m', rest', e0, _, e⟩
  · rw [hs.check] at e0; cases e0
  · rw [hs.1] at e0; cases e0
  · rw [hi] at e0; cases e0
  · have h1 := e1 (arrival, m) (by simp [hi])
    have h2 := hl _ e0
    simp only at h1
    omega
  · simp only [hi] at e0
    injection e0 with e0 e0'
    injection e0 with ea em
    subst ea; subst em
    obtain ⟨d1, _, evs, d3, d4, _⟩ := trace_deliver be c late m (emit (.taken m) { s with
        w := (Writer.check s.w).1
        now := max (s.now + d) arrival
        incoming := rest' })
    rw [e]
    refine ⟨?_, evs, d3, ?_⟩
    · refine Eq.trans d1 ?_
      simp only [emit]; omega
    · refine Eq.trans d4 ?_
      simp [emit]

/-- With an exception of the writer thread at the front of its reports, `receive` raises that and reads nothing; what has arrived is not lost. -/
theorem C109_feedback (be : Bool) (timeout : Option Int) (c late : Clocks) (s : State) (e : Writer.Exn) (rest : List Writer.Report)
    (h : s.w.feedback = .failed e :: rest) :
    let s' := receive be timeout c late s
    s'.w.trace = s.w.trace ++ [.raised e] ∧ s'.w.feedback = rest ∧ s'.incoming = s.incoming ∧ s'.trace = s.trace ∧ s'.now = s.now := by
  have hc : Writer.check s.w = ({ s.w with
      feedback := rest
      trace := s.w.trace ++ [.raised e] }, true) := by
    simp only [Writer.check, h]
  simp only [receive, hc]
  simp

/-- The steps of the writer's model in a history. -/
def writerSteps (steps : List Step) : List Writer.Step := steps.filterMap fun
  | .other st => some st
  | .receive _ _ _ => some .receive
  | .wait _ => none

theorem receive_w (be : Bool) (timeout : Option Int) (c late : Clocks) (s : State) :
    (receive be timeout c late s).w = (Writer.check s.w).1 := by
  have hd : ∀ m (q : State), (deliver be c late m q).w = q.w := by
    intro m q
    unfold deliver
    split
    · rfl
    · split
      · rfl
      · split
        · rfl
        · split <;> rfl
  rcases receive_cases be timeout c late s with ⟨_, e⟩ | ⟨_, _, e⟩ | ⟨_, _, _, _, e⟩ | ⟨_, _, d, _, _, e⟩ | ⟨_, _, t, m, rest, _, _, e⟩
  · rw [e]
  · rw [e]; rfl
  · rw [e]
  · rw [e]; rfl
  · rw [e, hd]; rfl

/-- As long as the main thread does not wait for ever, the queues and the writer thread are those of the writer's model, so that the theorems about
transmission (C88) apply. -/
theorem C109_writer (be : Bool) (inc : List (Int × Incoming)) (steps : List Step)
    (h : ∀ n, (run be inc (steps.take n)).stuck = false) : (run be inc steps).w = Writer.run be (writerSteps steps) := by
  have main : ∀ (steps : List Step) (s : State), (∀ n, ((steps.take n).foldl (step be) s).stuck = false) →
      (steps.foldl (step be) s).w = (writerSteps steps).foldl (Writer.step be) s.w := by
    intro steps
    induction steps with
    | nil => intro s _; rfl
    | cons st steps ih =>
      intro s hs
      have h0 : s.stuck = false := hs 0
      have h1 := ih (step be s st) (fun n => hs (n + 1))
      rw [List.foldl_cons, h1]
      cases st with
      | other st =>
        simp [writerSteps, step, h0]
      | receive timeout c late =>
        simp only [writerSteps, step, h0, Bool.and_false, List.filterMap_cons, List.foldl_cons]
        simp only [Bool.false_eq_true, if_false, receive_w, Writer.step]
      | wait d => simp [writerSteps, step, h0]
  exact main steps _ h

/-- The steps of the writer thread. -/
def threadSteps (steps : List Step) : List Writer.Step :=
  steps.filterMap (fun
    | .other .take => some .take
    | .other (.attempt o) => some (.attempt o)
    | .other .report => some .report
    | _ => none)

/-- After any history, the queues and the writer thread are those of the writer's model after the steps until the main thread waits for ever, if it
does, and all the later steps of the writer thread: waiting in `receive` does not stop transmission. -/
theorem C109_writer_always (be : Bool) (inc : List (Int × Incoming)) (steps : List Step) : ∃ before after, steps = before ++ after ∧
    (after = [] ∨ (run be inc before).stuck = true) ∧
    (run be inc steps).w = Writer.run be (writerSteps before ++ threadSteps after) := by
  have halt : ∀ (steps : List Step) (s : State), s.stuck = true →
      (steps.foldl (step be) s).w = (threadSteps steps).foldl (Writer.step be) s.w := by
    intro steps
    induction steps with
    | nil => intro s _; rfl
    | cons st steps ih =>
      intro s hs
      have h1 : (step be s st).stuck = true := by
        cases st with
        | other st => cases st <;> simp [step, Step.isMain, hs]
        | receive timeout c late => simp [step, Step.isMain, hs]
        | wait d => simp [step, Step.isMain, hs]
      rw [List.foldl_cons, ih _ h1]
      cases st with
      | other st => cases st <;> simp [threadSteps, step, Step.isMain, hs]
      | receive timeout c late => simp [threadSteps, step, Step.isMain, hs]
      | wait d => simp [threadSteps, step, Step.isMain]
  have main : ∀ (steps : List Step) (s : State), ∃ before after, steps = before ++ after ∧
      (after = [] ∨ (before.foldl (step be) s).stuck = true) ∧
      (steps.foldl (step be) s).w = (writerSteps before ++ threadSteps after).foldl (Writer.step be) s.w := by
    intro steps
    induction steps with
    | nil => intro s; exact ⟨[], [], rfl, .inl rfl, rfl⟩
    | cons st steps ih =>
      intro s
      by_cases h0 : s.stuck = true
      · exact ⟨[], st :: steps, rfl, .inr h0, halt _ s h0⟩
      · have h0 : s.stuck = false := by simpa using h0
        obtain ⟨before, after, e, h, e1⟩ := ih (step be s st)
        refine ⟨st :: before, after, by rw [e]; rfl, h, ?_⟩
        rw [List.foldl_cons, e1, List.foldl_append, List.foldl_append]
        congr 1
        cases st with
        | other st => simp [writerSteps, step, h0]
        | receive timeout c late =>
          simp only [writerSteps, step, h0, Bool.and_false, List.filterMap_cons, List.foldl_cons]
          simp only [Bool.false_eq_true, if_false, receive_w, Writer.step]
        | wait d => simp [writerSteps, step, h0]
  exact main steps _

/-- The main thread waits for ever; a frame accepted before is still sent. -/
example : let s := run false [] [.other (.send ⟨1, [], true, false⟩), .receive none ⟨0, 0⟩ ⟨0, 0⟩, .other .take, .other (.attempt .ok)]
    s.stuck = true ∧ (Writer.packetsOf s.w.trace).length = 1 := by decide +kernel

/-! ## C110 -/

/-- Every frame returned by a call, after any history: with a time stamp of the kernel, that is `ts_real`, and `ts_monotonic` is the reading of the
clock less the age of the frame, too early by at most a microsecond and too late by less than 50 milliseconds; without one, the two are readings of
the clocks. -/
theorem C110_partial (be : Bool) (incoming : List (Int × Incoming)) (steps : List Step) (timeout : Option Int) (c late : Clocks) (f : CANFrame)
    (mono real : Rat) (h : Monotonic (steps ++ [.receive timeout c late]))
    (hr : .returned f mono real ∈ calls be timeout c late (run be incoming steps)) :
    ∃ t bytes stamp rest, (run be incoming steps).incoming = (t, .message bytes stamp) :: rest ∧
      ((stamp = none ∨ stamp = some 0) ∧ mono = late.mono ∧ real = late.real ∨
       ∃ v x, stamp = some v ∧ v ≠ 0 ∧ real = v ∧ mono = (if x = 0 then late.mono else x) ∧
        c.mono - (c.real - v) - 1 / 1000000 ≤ x ∧ x < c.mono - (c.real - v) + 50 / 1000 ∧
        ((∀ k ∈ clocks steps, c.real - k.real ≤ (1 + 100 / 1000000) * (c.mono - k.mono)) → x = c.mono - (c.real - v) - 1 / 1000000)) := by
  have hm := h
  unfold Monotonic at hm
  rw [monos_eq, clocks_append, List.map_append, List.pairwise_append] at hm
  have h1 : Monotonic steps := by
    unfold Monotonic
    rw [monos_eq]
    exact hm.1
  have h2 : ∀ k ∈ clocks steps, k.mono ≤ c.mono := fun k hk => hm.2.2 _ (List.mem_map_of_mem hk) _ (by simp [clocks])
  have hi := run_inv be incoming steps h1
  generalize run be incoming steps = s at hr hi
  unfold calls at hr
  rcases receive_cases be timeout c late s with ⟨_, e⟩ | ⟨_, _, e⟩ | ⟨_, _, _, _, e⟩ | ⟨_, _, d, _, _, e⟩ | ⟨_, _, t, m, rest, e1, _, e⟩
  · rw [e] at hr; simp at hr
  · rw [e] at hr; simp [emit] at hr
  · rw [e] at hr; simp at hr
  · rw [e] at hr; simp [emit] at hr
  · rw [e] at hr
    obtain ⟨est', _, d2⟩ := deliver_spec be c late m (emit (.taken m) { s with
        w := (Writer.check s.w).1
        now := max s.now t
        incoming := rest }) (clocks steps) hi.est h2
    rcases d2 with ⟨_, d3⟩ | ⟨f', mono', real', _, d3, bytes, stamp, d4, d5⟩
    · rw [d3] at hr
      simp [emit] at hr
    · rw [d3] at hr
      simp [emit] at hr
      obtain ⟨rfl, rfl, rfl⟩ := hr
      refine ⟨t, bytes, stamp, rest, by rw [e1, d4], ?_⟩
      rcases d5 with d5 | ⟨v, x, x1, x2, x3, x4, x5, x6, x7⟩
      · exact .inl d5
      · refine .inr ⟨v, x, x1, x2, x3, x4, x5, ?_, x7⟩
        have : (0 : Rat) < 1 / 1000000 := by decide +kernel
        generalize (1 / 1000000 : Rat) = y at *
        generalize (50 / 1000 : Rat) = z at *
        grind

/-- A message of the kernel. -/
def message : Kernel where
  id := 0x1234567
  extended := true
  remote := false
  fd := false
  data := [1, 2, 3]
  fill := List.replicate 5 0
  flags := 0
  res0 := 0
  res1 := 0

/-- Two messages, each read when it arrives; meanwhile the real clock is set forward by 40 milliseconds. -/
def twice : List (Int × Incoming) := arrivals false [(0, message, some 1), (1000000, message, some (204 / 100))]

def firstStep : Step := .receive none ⟨1, 1⟩ ⟨1, 1⟩

/-- The real clock is set forward by 40 milliseconds: the time stamp is later than the moment at which `receive` returns. -/
theorem C110_future : calls false none ⟨2, 204 / 100⟩ ⟨2001 / 1000, 2041 / 1000⟩ (run false twice [firstStep]) =
    [.taken (.message (message.bytes false) (some (204 / 100))), .hook message.frame,
      .returned message.frame (2039899 / 1000000) (204 / 100)] := by decide +kernel

theorem C110_counterexample : ¬ C110_statement := by
  intro h
  have := h false twice [firstStep] none ⟨2, 204 / 100⟩ ⟨2001 / 1000, 2041 / 1000⟩ message.frame (2039899 / 1000000) (204 / 100)
    (by
      unfold Monotonic
      simp [monos, firstStep]
      decide +kernel)
    (by
      intro x hx
      simp only [twice, arrivals, List.map_cons, List.map_nil, List.mem_cons, List.not_mem_nil, or_false] at hx
      rcases hx with rfl | rfl
      · exact ⟨_, 1, by decide +kernel, rfl⟩
      · exact ⟨_, _, by decide +kernel, rfl⟩)
    (by rw [C110_future]; simp) (by decide +kernel)
  revert this
  decide +kernel

/-! ## Examples -/

example : message.Legal := ⟨by decide, by decide, by decide⟩

/-- A frame with a time stamp, one without, one that the driver does not understand, nothing, and an exception of the socket. -/
example : (run true [(5, .message (message.bytes true) (some 7)), (6, .message (message.bytes true) none), (7, .message [1, 2, 3] none), (9000, .error 100)]
      [.receive none ⟨10, 8⟩ ⟨11, 9⟩, .receive (some 0) ⟨12, 10⟩ ⟨13, 11⟩, .wait 10, .receive (some 0) ⟨12, 10⟩ ⟨13, 11⟩,
        .receive (some 1) ⟨13, 11⟩ ⟨13, 11⟩, .receive (some 1) ⟨13, 11⟩ ⟨13, 11⟩, .receive (some (-1)) ⟨13, 11⟩ ⟨13, 11⟩]).trace =
    [.taken (.message (message.bytes true) (some 7)), .hook message.frame, .returned message.frame (8999999 / 1000000) 7,
      .nothing 5, .taken (.message (message.bytes true) none), .hook message.frame, .returned message.frame 13 11,
      .taken (.message [1, 2, 3] none), .raised, .nothing 1015, .taken (.error 100), .raised] := by decide +kernel

end SocketReceive
end Dronecan
