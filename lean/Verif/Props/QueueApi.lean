import Verif.Model.QueueApi

/-!
# The methods of the MAVLink and multicast drivers (C107)
-/

namespace Dronecan
namespace QueueApi
open Can

/-! ## Specification -/

/-- The frames for which the hooks have been called, in one direction. -/
def hooked (incoming : Bool) (t : List Ev) : List CANFrame := t.filterMap fun
  | .hook i f => if i = incoming then some f else none
  | _ => none

def accepted (t : List Ev) : List CANFrame := t.filterMap fun
  | .accepted f => some f
  | _ => none

/-- The frames with which `send_frame` has been called. -/
def offered (t : List Ev) : List CANFrame := t.filterMap fun
  | .accepted f => some f
  | .refused f => some f
  | _ => none

def taken (t : List Ev) : List CANFrame := t.filterMap fun
  | .taken f => some f
  | _ => none

def arrived (t : List Ev) : List CANFrame := t.filterMap fun
  | .arrived f => some f
  | _ => none

def returned (t : List Ev) : List CANFrame := t.filterMap fun
  | .returned f _ => f
  | _ => none

/-- The call of `receive` that has not returned: timeout and time. -/
def openCall (t : List Ev) : Option (Option Int × Int) := t.foldl (fun c e => match e with
  | .called timeout now => some (timeout, now)
  | .returned _ _ => none
  | _ => c) none

/-- The frames that wait in the transmission queue. -/
def waiting (s : State) : List CANFrame := s.tx.filterMap fun
  | .frame f => some f
  | .control => none

/-- `receive` returns `None` only if a timeout was given and has passed; 0 counts as one millisecond. -/
def InTime (t : List Ev) : Prop :=
  ∀ a b now, t = a ++ .returned none now :: b → ∃ timeout start, openCall a = some (some timeout, start) ∧ start + max timeout 1000 ≤ now

/-- C107 in full. -/
def C107_statement : Prop :=
  ∀ (darwin : Bool) (steps : List Step),
    let s := run (rxSize darwin) steps
    taken s.trace ++ waiting s = accepted s.trace ∧ hooked false s.trace = accepted s.trace ∧
    returned s.trace ++ s.rx = arrived s.trace ∧ hooked true s.trace = returned s.trace ∧
    InTime s.trace ∧ s.tx.length ≤ 1000 ∧ s.alive = true

/-! ## Invariants -/

section
variable (a b : List Ev) (e : Ev)
theorem openCall_snoc : openCall (a ++ [e]) = match e with
    | .called timeout now => some (timeout, now)
    | .returned _ _ => none
    | _ => openCall a := by
  simp only [openCall, List.foldl_append, List.foldl_cons, List.foldl_nil]
end

theorem inTime_snoc {t : List Ev} (h : InTime t) (e : Ev)
    (he : ∀ now, e = .returned none now → ∃ timeout start, openCall t = some (some timeout, start) ∧ start + max timeout 1000 ≤ now) :
    InTime (t ++ [e]) := by
  intro a b now hab
  rcases List.eq_nil_or_concat b with rfl | ⟨b', x, rfl⟩
  · rw [List.append_eq_append_iff] at hab
    rcases hab with ⟨c, rfl, hc⟩ | ⟨c, rfl, hc⟩
    · cases c with
      | nil =>
        rw [List.append_nil]
        simp only [List.nil_append, List.cons.injEq, and_true] at hc
        exact he now hc
      | cons x c =>
        simp only [List.cons_append, List.cons.injEq] at hc
        exact absurd hc.2 (by simp)
    · cases c with
      | nil =>
        simp only [List.nil_append, List.cons.injEq, and_true] at hc
        rw [List.append_nil] at he
        exact he now hc.symm
      | cons x c =>
        simp only [List.cons_append, List.cons.injEq] at hc
        exact absurd hc.2 (by simp)
  · rw [List.concat_eq_append, ← List.cons_append, ← List.append_assoc] at hab
    have := List.append_inj_left' hab rfl
    exact h a b' now this

structure Inv (size : Nat) (s : State) : Prop where
  out : taken s.trace ++ waiting s = accepted s.trace
  hookOut : hooked false s.trace = offered s.trace
  inc : ∃ lost, arrived s.trace = returned s.trace ++ s.rx ++ lost ∧ (s.alive = true → lost = []) ∧ lost.length ≤ 1
  hookIn : hooked true s.trace = returned s.trace
  inTime : InTime s.trace
  tx : s.tx.length ≤ txSize
  rx : s.rx.length ≤ size
  died : s.alive = false ↔ Ev.died ∈ s.trace
  call : match s.main with
    | .idle => openCall s.trace = none
    | .getting start timeout | .checking start timeout =>
      ∃ t, openCall s.trace = some (t, start) ∧ (timeout = t ∨ timeout = t.map (max · 1000))

theorem inv_init (size : Nat) : Inv size {} where
  out := rfl
  hookOut := rfl
  inc := ⟨[], rfl, fun _ => rfl, Nat.zero_le _⟩
  hookIn := rfl
  inTime := by
    intro a b now h
    exact absurd h (by simp)
  tx := Nat.zero_le _
  rx := Nat.zero_le _
  died := by simp
  call := rfl

attribute [local simp] hooked accepted offered taken arrived returned waiting emit List.filterMap_append List.filterMap_cons

theorem sendFrame_inv {size : Nat} {s : State} (h : Inv size s) (hm : s.main = .idle) (f : CANFrame) : Inv size (sendFrame f s) := by
  have hc := h.call
  rw [hm] at hc
  have ho := h.out
  have hh := h.hookOut
  have hi := h.hookIn
  obtain ⟨lost, hl⟩ := h.inc
  simp only [sendFrame]
  split
  next hlt =>
    refine ⟨?_, ?_, ⟨lost, ?_⟩, ?_, ?_, ?_, h.rx, ?_, ?_⟩
    · simp at ho ⊢
      rw [← ho]; simp
    · simp at hh ⊢
      rw [hh]
    · simpa using hl
    · simpa using hi
    · exact inTime_snoc (inTime_snoc h.inTime _ (by intro _ h; cases h)) _ (by intro _ h; cases h)
    · simp at hlt ⊢
      omega
    · simpa using h.died
    · simp only [emit, hm, openCall_snoc]
      exact hc
  next hlt =>
    refine ⟨?_, ?_, ⟨lost, ?_⟩, ?_, ?_, h.tx, h.rx, ?_, ?_⟩
    · simpa using ho
    · simp at hh ⊢
      rw [hh]
    · simpa using hl
    · simpa using hi
    · exact inTime_snoc (inTime_snoc h.inTime _ (by intro _ h; cases h)) _ (by intro _ h; cases h)
    · simpa using h.died
    · simp only [emit, hm, openCall_snoc]
      exact hc

theorem lookUp_inv {size : Nat} {s : State} (h : Inv size s) (seen : Bool) (start : Int) (timeout : Option Int)
    (hm : s.main = .getting start timeout) : Inv size (lookUp seen start timeout s) := by
  have hc := h.call
  rw [hm] at hc
  have hsame : Inv size { s with main := .checking start timeout } := ⟨h.out, h.hookOut, h.inc, h.hookIn, h.inTime, h.tx, h.rx, h.died, hc⟩
  simp only [lookUp]
  split
  · exact hsame
  next f rest hr =>
    cases seen with
    | false => exact hsame
    | true =>
      have ho := h.out
      have hh := h.hookOut
      have hi := h.hookIn
      obtain ⟨lost, hl⟩ := h.inc
      have hx := h.rx
      rw [hr] at hl hx
      refine ⟨?_, ?_, ⟨lost, ?_⟩, ?_, ?_, h.tx, ?_, ?_, ?_⟩
      · simpa using ho
      · simpa using hh
      · simpa using hl
      · simp at hi ⊢
        rw [hi]
      · exact inTime_snoc (inTime_snoc h.inTime _ (by intro _ h; cases h)) _ (by intro _ h; cases h)
      · simp at hx ⊢
        omega
      · simpa using h.died
      · simp only [if_true, emit, openCall_snoc]

theorem checkTime_inv {size : Nat} {s : State} (h : Inv size s) (start : Int) (timeout : Option Int)
    (hm : s.main = .checking start timeout) : Inv size (checkTime start timeout s) := by
  have hc := h.call
  rw [hm] at hc
  obtain ⟨t0, hc, ht⟩ := hc
  cases timeout with
  | none => exact ⟨h.out, h.hookOut, h.inc, h.hookIn, h.inTime, h.tx, h.rx, h.died, ⟨t0, hc, ht⟩⟩
  | some t =>
    have hmax : ∃ τ, t0 = some τ ∧ max t 1000 = max τ 1000 := by
      rcases ht with rfl | ht
      · exact ⟨t, rfl, rfl⟩
      · cases t0 with
        | none => cases ht
        | some τ =>
          simp only [Option.map_some, Option.some.injEq] at ht
          exact ⟨τ, rfl, by omega⟩
    obtain ⟨τ, rfl, hτ⟩ := hmax
    simp only [checkTime]
    split
    next hge =>
      refine ⟨?_, ?_, ?_, ?_, ?_, h.tx, h.rx, ?_, ?_⟩
      · simpa using h.out
      · simpa using h.hookOut
      · simpa using h.inc
      · simpa using h.hookIn
      · refine inTime_snoc h.inTime _ fun now hn => ⟨τ, start, hc, ?_⟩
        simp only [Ev.returned.injEq, true_and] at hn
        rw [← hn, ← hτ]
        exact hge
      · simpa using h.died
      · simp only [emit, openCall_snoc]
    next => exact ⟨h.out, h.hookOut, h.inc, h.hookIn, h.inTime, h.tx, h.rx, h.died, ⟨some τ, hc, Or.inr (by simp [hτ])⟩⟩

theorem emit_inv {size : Nat} {s : State} (h : Inv size s) (c : Option Int) (hm : s.main = .idle) :
    Inv size (emit (.called c s.now) { s with main := .getting s.now c }) := by
  refine ⟨?_, ?_, ?_, ?_, ?_, h.tx, h.rx, ?_, ?_⟩
  · simpa using h.out
  · simpa using h.hookOut
  · simpa using h.inc
  · simpa using h.hookIn
  · exact inTime_snoc h.inTime _ (by intro _ h; cases h)
  · simpa using h.died
  · simp only [emit, openCall_snoc]
    exact ⟨c, rfl, Or.inl rfl⟩

theorem call_mono {s : State} {t : List Ev} (ht : openCall t = openCall s.trace) (h : match s.main with
    | .idle => openCall s.trace = none
    | .getting start timeout | .checking start timeout =>
      ∃ t, openCall s.trace = some (t, start) ∧ (timeout = t ∨ timeout = t.map (max · 1000))) : match s.main with
    | .idle => openCall t = none
    | .getting start timeout | .checking start timeout =>
      ∃ t', openCall t = some (t', start) ∧ (timeout = t' ∨ timeout = t'.map (max · 1000)) := by
  rw [ht]; exact h

theorem arrive_inv {size : Nat} {s : State} (h : Inv size s) (ha : s.alive = true) (f : CANFrame) : Inv size (arrive size f s) := by
  obtain ⟨lost, hl, hz, _⟩ := h.inc
  have hz := hz ha
  subst hz
  rw [List.append_nil] at hl
  have hd : Ev.died ∉ s.trace := fun hm => by
    have := h.died.2 hm
    rw [ha] at this; cases this
  simp only [arrive]
  split
  next hlt =>
    refine ⟨?_, ?_, ⟨[], ?_, fun _ => rfl, Nat.zero_le _⟩, ?_, ?_, h.tx, ?_, ?_, ?_⟩
    · simpa using h.out
    · simpa using h.hookOut
    · simp at hl ⊢
      rw [hl]; simp
    · simpa using h.hookIn
    · exact inTime_snoc h.inTime _ (by intro _ h; cases h)
    · simp at hlt ⊢
      omega
    · simpa using h.died
    · exact call_mono (s := s) (by simp only [emit, openCall_snoc]) h.call
  next hlt =>
    refine ⟨?_, ?_, ⟨[f], ?_, (fun h => nomatch h), Nat.le_refl _⟩, ?_, ?_, h.tx, h.rx, ?_, ?_⟩
    · simpa using h.out
    · simpa using h.hookOut
    · simp at hl ⊢
      rw [hl]; simp
    · simpa using h.hookIn
    · exact inTime_snoc (inTime_snoc h.inTime _ (by intro _ h; cases h)) _ (by intro _ h; cases h)
    · simp
    · exact call_mono (s := s) (by simp only [emit, openCall_snoc]) h.call

theorem take_inv {size : Nat} {s : State} (h : Inv size s) : Inv size (take s) := by
  have ho := h.out
  have hx := h.tx
  simp only [take]
  split
  · exact h
  next rest hr =>
    rw [hr] at hx
    refine ⟨?_, h.hookOut, h.inc, h.hookIn, h.inTime, ?_, h.rx, h.died, h.call⟩
    · simpa [hr] using ho
    · simp at hx ⊢
      omega
  next f rest hr =>
    rw [hr] at hx
    refine ⟨?_, ?_, ?_, ?_, ?_, ?_, h.rx, ?_, ?_⟩
    · simpa [hr] using ho
    · simpa using h.hookOut
    · simpa using h.inc
    · simpa using h.hookIn
    · exact inTime_snoc h.inTime _ (by intro _ h; cases h)
    · simp at hx ⊢
      omega
    · simpa using h.died
    · exact call_mono (s := s) (by simp only [emit, openCall_snoc]) h.call

theorem step_inv {size : Nat} {s : State} (h : Inv size s) (st : Step) : Inv size (step size s st) := by
  cases st with
  | clock t => exact ⟨h.out, h.hookOut, h.inc, h.hookIn, h.inTime, h.tx, h.rx, h.died, h.call⟩
  | arrive f =>
    simp only [step]
    split
    next ha => exact arrive_inv h ha f
    next => exact h
  | take =>
    simp only [step]
    split
    next ha => exact take_inv h
    next => exact h
  | send f =>
    simp only [step]
    split
    next hm => exact sendFrame_inv h hm f
    next => exact h
  | control =>
    simp only [step]
    split
    next hm =>
      split
      next hlt =>
        refine ⟨?_, h.hookOut, h.inc, h.hookIn, h.inTime, ?_, h.rx, h.died, h.call⟩
        · simpa using h.out
        · simp at hlt ⊢
          omega
      next => exact h
    next => exact h
  | receive timeout =>
    simp only [step]
    split
    next hm => exact emit_inv h timeout hm
    next => exact h
  | work seen =>
    simp only [step]
    split
    next hm => exact h
    next start timeout hm => exact lookUp_inv h seen start timeout hm
    next start timeout hm => exact checkTime_inv h start timeout hm

theorem run_inv (size : Nat) (steps : List Step) : Inv size (run size steps) := by
  have : ∀ (s : State), Inv size s → Inv size (steps.foldl (step size) s) := by
    induction steps with
    | nil => exact fun s h => h
    | cons a l ih => exact fun s h => ih _ (step_inv h a)
  exact this {} (inv_init size)

/-! ## C107 -/

/-- What always holds: what the process gets is what was accepted, in order; the hooks are called for everything offered to `send_frame`, accepted or
not, in order. -/
theorem C107_send (size : Nat) (steps : List Step) :
    taken (run size steps).trace ++ waiting (run size steps) = accepted (run size steps).trace ∧
    hooked false (run size steps).trace = offered (run size steps).trace ∧ (run size steps).tx.length ≤ 1000 :=
  let h := run_inv size steps
  ⟨h.out, h.hookOut, h.tx⟩

/-- What always holds: `receive` returns what arrives, in order, each frame once, with the hooks called; only the frame with which the process dies is
lost. `None` is returned only if the timeout has passed. -/
theorem C107_receive (size : Nat) (steps : List Step) :
    hooked true (run size steps).trace = returned (run size steps).trace ∧ InTime (run size steps).trace ∧
    ∃ lost, arrived (run size steps).trace = returned (run size steps).trace ++ (run size steps).rx ++ lost ∧
      (Ev.died ∉ (run size steps).trace → lost = []) ∧ lost.length ≤ 1 := by
  have h := run_inv size steps
  obtain ⟨lost, hl, hz, h1⟩ := h.inc
  refine ⟨h.hookIn, h.inTime, lost, hl, fun hd => hz ?_, h1⟩
  cases ha : (run size steps).alive with
  | true => rfl
  | false => exact absurd (h.died.1 ha) hd

/-- C107 if no frame is refused and the reception queue does not overflow. (Missing: `C107_counterexample`, `C107_dies`.) -/
theorem C107_partial (darwin : Bool) (steps : List Step) (hr : ∀ f, Ev.refused f ∉ (run (rxSize darwin) steps).trace)
    (hd : Ev.died ∉ (run (rxSize darwin) steps).trace) :
    let s := run (rxSize darwin) steps
    taken s.trace ++ waiting s = accepted s.trace ∧ hooked false s.trace = accepted s.trace ∧
    returned s.trace ++ s.rx = arrived s.trace ∧ hooked true s.trace = returned s.trace ∧
    InTime s.trace ∧ s.tx.length ≤ 1000 ∧ s.alive = true := by
  intro s
  have h := run_inv (rxSize darwin) steps
  obtain ⟨hi, ht, lost, hl, hz, _⟩ := C107_receive (rxSize darwin) steps
  refine ⟨h.out, ?_, ?_, hi, ht, h.tx, ?_⟩
  · show hooked false (run (rxSize darwin) steps).trace = accepted (run (rxSize darwin) steps).trace
    rw [h.hookOut]
    generalize (run (rxSize darwin) steps).trace = t at hr
    induction t with
    | nil => rfl
    | cons e t ih =>
      have ih := ih fun f hm => hr f (List.mem_cons_of_mem _ hm)
      cases e with
      | refused f => exact absurd List.mem_cons_self (hr f)
      | _ => simpa [offered, accepted] using ih
  · rw [hl, hz hd, List.append_nil]
  · cases ha : (run (rxSize darwin) steps).alive with
    | true => rfl
    | false => exact absurd (h.died.1 ha) hd

/-- A frame is refused exactly if 1000 items wait; the process dies exactly if a frame arrives while the reception queue is full; then nothing arrives and
nothing is taken any more. -/
theorem C107_limits (size : Nat) (steps : List Step) (f : CANFrame) :
    let s := run size steps
    (s.main = .idle → ((Ev.refused f ∈ ((step size s (.send f)).trace.drop s.trace.length)) ↔ s.tx.length = 1000)) ∧
    (s.alive = true → ((step size s (.arrive f)).alive = false ↔ s.rx.length = size)) ∧
    (s.alive = false → ∀ more, taken (run size (steps ++ more)).trace = taken s.trace ∧ arrived (run size (steps ++ more)).trace = arrived s.trace) := by
  intro s
  have h := run_inv size steps
  refine ⟨fun hm => ?_, fun ha => ?_, fun ha more => ?_⟩
  · have hx : s.tx.length ≤ 1000 := h.tx
    simp only [step, hm, sendFrame, emit]
    split
    next hlt =>
      simp [txSize] at hlt ⊢
      omega
    next hlt =>
      simp [txSize] at hlt ⊢
      omega
  · have hx : s.rx.length ≤ size := h.rx
    simp only [step, ha, if_true, arrive, emit]
    split
    next hlt =>
      simp at hlt ⊢
      omega
    next hlt =>
      simp at hlt ⊢
      omega
  · have hr : run size (steps ++ more) = more.foldl (step size) s := by rw [run, List.foldl_append]; rfl
    rw [hr]
    clear hr h
    generalize s = q at ha
    induction more generalizing q with
    | nil => exact ⟨rfl, rfl⟩
    | cons a l ih =>
      rw [List.foldl_cons]
      have hs : (step size q a).alive = false ∧ taken (step size q a).trace = taken q.trace ∧ arrived (step size q a).trace = arrived q.trace := by
        cases a with
        | clock t => exact ⟨ha, rfl, rfl⟩
        | arrive f => simp [step, ha]
        | take => simp [step, ha]
        | send f =>
          simp only [step]
          split
          · simp only [sendFrame]
            by_cases hlt : (emit (.hook false f) q).tx.length < txSize
            · rw [if_pos hlt]; simp [ha]
            · rw [if_neg hlt]; simp [ha]
          · exact ⟨ha, rfl, rfl⟩
        | control =>
          simp only [step]
          split
          · split <;> exact ⟨ha, rfl, rfl⟩
          · exact ⟨ha, rfl, rfl⟩
        | receive timeout =>
          simp only [step]
          split
          · simp [ha]
          · exact ⟨ha, rfl, rfl⟩
        | work seen =>
          simp only [step]
          split
          · exact ⟨ha, rfl, rfl⟩
          · simp only [lookUp]
            split
            · exact ⟨ha, rfl, rfl⟩
            · cases seen <;> simp [ha]
          · simp only [checkTime]
            split
            · exact ⟨ha, rfl, rfl⟩
            · split <;> simp [ha]
      obtain ⟨h1, h2⟩ := ih _ hs.1
      exact ⟨h1.trans hs.2.1, h2.trans hs.2.2⟩

/-- `receive` returns: a frame that has come through, at once; `None` as soon as the clock is read at or after the deadline. -/
theorem C107_returns (size : Nat) (steps : List Step) (timeout : Option Int) (start : Int)
    (hc : openCall (run size steps).trace = some (timeout, start)) :
    (∀ f rest, (run size steps).rx = f :: rest → (∃ a b, (run size steps).main = .getting a b) →
      returned (run size (steps ++ [.work true])).trace = returned (run size steps).trace ++ [f] ∧
      (run size (steps ++ [.work true])).main = .idle) ∧
    (∀ t, timeout = some t → start + max t 1000 ≤ (run size steps).now → (∃ a b, (run size steps).main = .checking a b) → ∀ seen,
      (run size (steps ++ [.work seen])).trace = (run size steps).trace ++ [.returned none (run size steps).now]) := by
  have h := run_inv size steps
  have hr : ∀ a, run size (steps ++ [a]) = step size (run size steps) a := by
    intro a; rw [run, List.foldl_append]; rfl
  constructor
  · rintro f rest hx ⟨a, b, hm⟩
    rw [hr]
    simp [step, hm, lookUp, hx]
  · rintro t rfl ht ⟨a, b, hm⟩ seen
    rw [hr]
    have hcall := h.call
    rw [hm] at hcall
    obtain ⟨t0, hc', hb⟩ := hcall
    rw [hc] at hc'
    simp only [Option.some.injEq, Prod.mk.injEq] at hc'
    obtain ⟨rfl, rfl⟩ := hc'
    have hb' : ∃ u, b = some u ∧ max u 1000 = max t 1000 := by
      rcases hb with rfl | rfl
      · exact ⟨t, rfl, rfl⟩
      · exact ⟨_, rfl, by show max (max t 1000) 1000 = _; omega⟩
    obtain ⟨u, rfl, hu⟩ := hb'
    simp only [step, hm, checkTime]
    rw [if_pos (by rw [hu]; exact ht)]
    rfl

/-! ## The queues overflow -/

theorem send_many (f : CANFrame) (n : Nat) (hn : n ≤ 1000) (s : State) (hm : s.main = .idle) (hx : s.tx = []) (size : Nat) :
    ∃ t, (List.replicate n (Step.send f)).foldl (step size) s = { s with tx := List.replicate n (.frame f), trace := t } := by
  induction n with
  | zero => exact ⟨s.trace, by simp [← hx]⟩
  | succ n ih =>
    obtain ⟨t, ht⟩ := ih (by omega)
    refine ⟨t ++ [.hook false f] ++ [.accepted f], ?_⟩
    rw [List.replicate_succ', List.foldl_append, ht]
    simp only [List.foldl_cons, List.foldl_nil, step, hm, sendFrame, emit, List.length_replicate, txSize]
    rw [if_pos (by omega)]
    simp [List.replicate_succ']

theorem arrive_many (f : CANFrame) (size n : Nat) (hn : n ≤ size) :
    ∃ t, (List.replicate n (Step.arrive f)).foldl (step size) {} = { rx := List.replicate n f, trace := t } := by
  induction n with
  | zero => exact ⟨[], rfl⟩
  | succ n ih =>
    obtain ⟨t, ht⟩ := ih (by omega)
    refine ⟨t ++ [.arrived f], ?_⟩
    rw [List.replicate_succ', List.foldl_append, ht]
    simp only [List.foldl_cons, List.foldl_nil, step, if_true, arrive, emit, List.length_replicate]
    rw [if_pos (by omega)]
    simp [List.replicate_succ']

/-- The hooks are called for a frame that is refused. -/
theorem C107_counterexample : ¬ C107_statement := by
  intro h
  obtain ⟨t, ht⟩ := send_many ⟨1, [], true, false⟩ 1000 (Nat.le_refl _) {} rfl rfl (rxSize false)
  have hs := h false (List.replicate 1000 (Step.send ⟨1, [], true, false⟩) ++ [.send ⟨2, [], true, false⟩])
  have h0 := h false (List.replicate 1000 (Step.send ⟨1, [], true, false⟩))
  simp only [run, List.foldl_append, ht, List.foldl_cons, List.foldl_nil, step, sendFrame, emit, List.length_replicate, txSize,
    Nat.lt_irrefl, if_false] at hs h0
  have h1 := hs.2.1
  have h2 := h0.2.1
  simp at h1 h2
  rw [h2] at h1
  simp at h1

/-- An application that does not read for a while loses the driver: the process dies when a frame more than the queue holds has arrived. -/
theorem C107_dies (darwin : Bool) (f : CANFrame) : (run (rxSize darwin) (List.replicate (rxSize darwin + 1) (.arrive f))).alive = false := by
  obtain ⟨t, ht⟩ := arrive_many f (rxSize darwin) (rxSize darwin) (Nat.le_refl _)
  rw [List.replicate_succ', run, List.foldl_append, ht]
  simp [step, arrive]

/-- The driver goes on as long as no more than a million frames (32767 on macOS) have arrived, whatever the application does. -/
theorem C107_room (darwin : Bool) (steps : List Step)
    (h : (arrived (run (rxSize darwin) steps).trace).length ≤ if darwin then 32767 else 1000000) :
    (run (rxSize darwin) steps).alive = true := by
  have key : ∀ size n, (run size (steps.take n)).alive = false → size < (arrived (run size (steps.take n)).trace).length := by
    intro size n
    induction n with
    | zero => intro ha; exact nomatch ha
    | succ n ih =>
      by_cases hn : n < steps.length
      · rw [List.take_succ_eq_append_getElem hn]
        intro ha
        by_cases hb : (run size (steps.take n)).alive = false
        · rw [((C107_limits size (steps.take n) ⟨0, [], true, false⟩).2.2 hb _).2]; exact ih hb
        · have hb' : (run size (steps.take n)).alive = true := by simpa using hb
          have hr : run size (steps.take n ++ [steps[n]]) = step size (run size (steps.take n)) steps[n] := by
            rw [run, List.foldl_append]; rfl
          rw [hr] at ha ⊢
          cases hx : steps[n] with
          | arrive f =>
            rw [hx] at ha
            have hl := ((C107_limits size (steps.take n) f).2.1 hb').1 ha
            obtain ⟨_, _, lost, he, _⟩ := C107_receive size (steps.take n)
            have : arrived (step size (run size (steps.take n)) (.arrive f)).trace = arrived (run size (steps.take n)).trace ++ [f] := by
              simp only [step, hb', if_true, arrive]
              split <;> simp [emit, arrived]
            rw [this, he]
            simp only [List.length_append, List.length_singleton]
            omega
          | _ =>
            rw [hx] at ha
            exfalso
            revert ha
            simp only [step, take, sendFrame, lookUp, checkTime, emit]
            repeat' split
            all_goals simp [hb']
            all_goals (split <;> rfl)
      · have e : steps.take (n + 1) = steps.take n := by
          rw [List.take_of_length_le (by omega), List.take_of_length_le (by omega)]
        rw [e]; exact ih
  cases ha : (run (rxSize darwin) steps).alive with
  | true => rfl
  | false =>
    have := key (rxSize darwin) steps.length
    rw [List.take_length] at this
    have := this ha
    have e : rxSize darwin = if darwin then 32767 else 1000000 := rfl
    omega

def f1 : CANFrame := ⟨0x123, [1, 2], true, false⟩
def f2 : CANFrame := ⟨0x124, [], true, false⟩

/-- A call that waits, a call that times out, a call without a timeout. -/
example : (run 5 [.send f1, .receive (some 2000), .work true, .clock 1500, .work true, .arrive f2, .take, .work false, .clock 1900, .work true, .work true,
    .receive (some 0), .work true, .clock 2900, .work true, .receive none, .arrive f1, .work false, .work false, .work true]).trace =
    [.hook false f1, .accepted f1, .called (some 2000) 0, .arrived f2, .taken f1, .hook true f2, .returned (some f2) 1900, .called (some 0) 1900,
      .returned none 2900, .called none 2900, .arrived f1, .hook true f1, .returned (some f1) 2900] := by decide +kernel

end QueueApi
end Dronecan
