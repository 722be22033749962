import Verif.Model.Mcast

/-!
# The loop of the UDP multicast driver (C89, C90)
-/

namespace Dronecan
namespace Mcast
open Can

/-! ## Specification -/

def putsOf (t : List Ev) : List CANFrame := t.filterMap fun
  | .put f => some f
  | _ => none

def openedOf (t : List Ev) : List Nat := t.filterMap fun
  | .opened p => some p
  | _ => none

def sentOf (t : List Ev) : List (List Byte) := t.filterMap fun
  | .sent _ b => some b
  | _ => none

def lostOf (t : List Ev) : List CANFrame := t.filterMap fun
  | .lost f => some f
  | _ => none

def gotsOf (t : List Ev) : List (Nat × Nat × List Byte) := t.filterMap fun
  | .got a p b => some (a, p, b)
  | _ => none

def deliveredOf (t : List Ev) : List CANFrame := t.filterMap fun
  | .delivered f => some f
  | _ => none

/-- The datagrams that do not come from a socket of this driver; `own`: the ports of its sockets so far. -/
def others (self : Nat) : List Nat → List Ev → List (List Byte)
  | _, [] => []
  | own, .opened p :: t => others self (p :: own) t
  | own, .got a p b :: t => if a = self ∧ p ∈ own then others self own t else b :: others self own t
  | own, _ :: t => others self own t

/-- The frames delivered to the application are those in the packets sent by others, in order. -/
def C89_statement : Prop :=
  ∀ (self : Nat) (steps : List Step), deliveredOf (run steps).trace = (others self [] (run steps).trace).filterMap Packet.mcastParse

/-- The port of the sending socket when the first datagram arrived. -/
def firstPort : Nat → List Ev → Option Nat
  | _, [] => none
  | _, .opened q :: t => firstPort q t
  | p, .got _ _ _ :: _ => some p
  | p, _ :: t => firstPort p t

/-! ## Reception -/

def lastPort : Nat → List Ev → Nat
  | p, [] => p
  | _, .opened q :: t => lastPort q t
  | p, _ :: t => lastPort p t

theorem lastPort_append (p : Nat) (a b : List Ev) : lastPort p (a ++ b) = lastPort (lastPort p a) b := by
  induction a generalizing p with
  | nil => rfl
  | cons e a ih => cases e <;> exact ih _

theorem firstPort_append (p : Nat) (a b : List Ev) : firstPort p (a ++ b) = (firstPort p a).or (firstPort (lastPort p a) b) := by
  induction a generalizing p with
  | nil => simp [firstPort, lastPort]
  | cons e a ih =>
    cases e <;> simp only [List.cons_append, firstPort, lastPort, ih] <;> rfl

/-- Events that are not about reception or sockets. -/
def Ev.quiet : Ev → Bool
  | .put _ => true
  | .sent _ _ => true
  | .lost _ => true
  | .died => true
  | _ => false

theorem firstPort_quiet (p : Nat) (l : List Ev) (h : ∀ e ∈ l, e.quiet = true) : firstPort p l = none := by
  induction l with
  | nil => rfl
  | cons e l ih =>
    have he := h e List.mem_cons_self
    have := ih (fun x hx => h x (List.mem_cons_of_mem _ hx))
    cases e <;> first | exact this | cases he

theorem lastPort_quiet (p : Nat) (l : List Ev) (h : ∀ e ∈ l, e.quiet = true) : lastPort p l = p := by
  induction l with
  | nil => rfl
  | cons e l ih =>
    have he := h e List.mem_cons_self
    have := ih (fun x hx => h x (List.mem_cons_of_mem _ hx))
    cases e <;> first | exact this | cases he

theorem gotsOf_quiet (l : List Ev) (h : ∀ e ∈ l, e.quiet = true) : gotsOf l = [] ∧ deliveredOf l = [] ∧ openedOf l = [] := by
  refine ⟨?_, ?_, ?_⟩ <;>
  · apply List.filterMap_eq_nil_iff.2
    intro e he
    have := h e he
    cases e <;> first | rfl | cases this

/-- The frames delivered by the code for given datagrams. -/
def accepted (port : Option Nat) (l : List (Nat × Nat × List Byte)) : List CANFrame :=
  l.filterMap (fun x => if port = some x.2.1 then none else Packet.mcastParse x.2.2)

structure RInv (s : State) : Prop where
  port : s.port = lastPort 0 s.trace
  myport : s.myport = firstPort 0 s.trace
  none : firstPort 0 s.trace = none → gotsOf s.trace = []
  delivered : deliveredOf s.trace = accepted (firstPort 0 s.trace) (gotsOf s.trace)
  opened : s.needConnect = false → openedOf s.trace ≠ []
  order : ∀ pre a p b post, s.trace = pre ++ .got a p b :: post → openedOf pre ≠ []

theorem order_append {t l : List Ev} (h : ∀ pre a p b post, t = pre ++ .got a p b :: post → openedOf pre ≠ [])
    (hl : ∀ pre a p b post, l = pre ++ .got a p b :: post → openedOf t ≠ []) :
    ∀ pre a p b post, t ++ l = pre ++ .got a p b :: post → openedOf pre ≠ [] := by
  intro pre a p b post he
  rcases List.append_eq_append_iff.1 he with ⟨x, h1, h2⟩ | ⟨x, h1, h2⟩
  · have := hl x a p b post h2
    rw [h1]
    unfold openedOf at this ⊢
    rw [List.filterMap_append]
    intro h0
    exact this (List.append_eq_nil_iff.1 h0).1
  · cases x with
    | nil =>
      rw [List.nil_append] at h2
      have := hl [] a p b post (by rw [← h2]; rfl)
      rw [List.append_nil] at h1
      rw [← h1]
      exact this
    | cons e x =>
      injection h2 with h3 h4
      subst h3
      exact h pre a p b x h1

theorem RInv.quiet (s : State) (h : RInv s) (s' : State) (l : List Ev) (hl : ∀ e ∈ l, e.quiet = true) (ht : s'.trace = s.trace ++ l)
    (hp : s'.port = s.port) (hm : s'.myport = s.myport) (hn : s'.needConnect = false → s.needConnect = false) : RInv s' := by
  obtain ⟨g1, g2, g3⟩ := gotsOf_quiet l hl
  have e1 : gotsOf (s.trace ++ l) = gotsOf s.trace := by
    unfold gotsOf at g1 ⊢; rw [List.filterMap_append, g1, List.append_nil]
  have e2 : deliveredOf (s.trace ++ l) = deliveredOf s.trace := by
    unfold deliveredOf at g2 ⊢; rw [List.filterMap_append, g2, List.append_nil]
  have e3 : openedOf (s.trace ++ l) = openedOf s.trace := by
    unfold openedOf at g3 ⊢; rw [List.filterMap_append, g3, List.append_nil]
  have e4 : firstPort 0 (s.trace ++ l) = firstPort 0 s.trace := by
    rw [firstPort_append, firstPort_quiet _ l hl, Option.or_none]
  constructor
  · rw [ht, lastPort_append, lastPort_quiet _ l hl, hp, h.port]
  · rw [ht, e4, hm, h.myport]
  · rw [ht, e4, e1]; exact h.none
  · rw [ht, e4, e1, e2]; exact h.delivered
  · rw [ht, e3]; exact fun hc => h.opened (hn hc)
  · rw [ht]
    refine order_append h.order ?_
    intro pre a p b post he
    have := hl (.got a p b) (by rw [he]; simp)
    cases this

theorem sendAll_spec (fs : List CANFrame) (fails : List Bool) (s : State) : ∃ l, (∀ e ∈ l, e.quiet = true) ∧
    (sendAll fs fails s).trace = s.trace ++ l ∧ (sendAll fs fails s).port = s.port ∧ (sendAll fs fails s).myport = s.myport ∧
    ((sendAll fs fails s).needConnect = false → s.needConnect = false) := by
  induction fs generalizing fails s with
  | nil => exact ⟨[], (by simp), (by simp [sendAll]), rfl, rfl, id⟩
  | cons f fs ih =>
    simp only [sendAll]
    split
    · exact ⟨[.died], (by simp [Ev.quiet]), rfl, rfl, rfl, id⟩
    · split
      · obtain ⟨l, h1, h2, h3, h4, h5⟩ := ih fails.tail { s with
          needConnect := true
          trace := s.trace ++ [.lost f] }
        refine ⟨.lost f :: l, ?_, ?_, h3, h4, ?_⟩
        · intro e he
          rcases List.mem_cons.1 he with rfl | he
          · rfl
          · exact h1 e he
        · rw [h2]; simp
        · intro hc; exact absurd (h5 hc) (by simp)
      · rename_i p hp _
        obtain ⟨l, h1, h2, h3, h4, h5⟩ := ih fails.tail { s with trace := s.trace ++ [.sent s.port p] }
        refine ⟨.sent s.port p :: l, ?_, ?_, h3, h4, h5⟩
        · intro e he
          rcases List.mem_cons.1 he with rfl | he
          · rfl
          · exact h1 e he
        · rw [h2]; simp

theorem accepted_append (p : Option Nat) (a b : List (Nat × Nat × List Byte)) : accepted p (a ++ b) = accepted p a ++ accepted p b :=
  List.filterMap_append

theorem receive_inv (r : Recv) (s : State) (h : RInv s) (hc : openedOf s.trace ≠ []) : RInv (receive r s) := by
  cases r with
  | nothing => exact h
  | error => exact ⟨h.port, h.myport, h.none, h.delivered, (by intro hn; cases hn), h.order⟩
  | datagram a p b =>
    simp only [receive]
    have hmy : (some (s.myport.getD s.port) : Option Nat) = firstPort 0 (s.trace ++ [.got a p b]) := by
      rw [firstPort_append, h.myport, h.port]
      cases firstPort 0 s.trace <;> rfl
    have hsame : firstPort 0 s.trace = none ∨ firstPort 0 (s.trace ++ [.got a p b]) = firstPort 0 s.trace := by
      rw [firstPort_append]
      cases hf : firstPort 0 s.trace with
      | none => left; rfl
      | some x => right; rfl
    have hdel : accepted (firstPort 0 s.trace) (gotsOf s.trace) = accepted (firstPort 0 (s.trace ++ [.got a p b])) (gotsOf s.trace) := by
      rcases hsame with hs | hs
      · rw [h.none hs]; rfl
      · rw [hs]
    have hg : ∀ t, gotsOf (t ++ [.got a p b]) = gotsOf t ++ [(a, p, b)] := by intro t; simp [gotsOf]
    have hd : ∀ t, deliveredOf (t ++ [.got a p b]) = deliveredOf t := by intro t; simp [deliveredOf]
    have ho : ∀ t, openedOf (t ++ [.got a p b]) = openedOf t := by intro t; simp [openedOf]
    have hord := order_append (l := [.got a p b]) h.order (fun _ _ _ _ _ _ => hc)
    have base : accepted (firstPort 0 (s.trace ++ [.got a p b])) [(a, p, b)] = [] → RInv { s with
        myport := some (s.myport.getD s.port)
        trace := s.trace ++ [.got a p b] } := by
      intro hacc
      constructor
      · show s.port = lastPort 0 (s.trace ++ [.got a p b])
        rw [lastPort_append, h.port]; rfl
      · exact hmy
      · show firstPort 0 (s.trace ++ [.got a p b]) = none → _
        rw [← hmy]; intro hx; cases hx
      · show deliveredOf (s.trace ++ [.got a p b]) = accepted (firstPort 0 (s.trace ++ [.got a p b])) (gotsOf (s.trace ++ [.got a p b]))
        rw [hd, hg, accepted_append, hacc, List.append_nil, h.delivered, hdel]
      · intro _
        show openedOf (s.trace ++ [.got a p b]) ≠ []
        rw [ho]; exact hc
      · exact hord
    split
    · rename_i hp
      apply base
      rw [← hmy]
      simp only [accepted, List.filterMap_cons, List.filterMap_nil]
      rw [if_pos hp]
    · rename_i hp
      split
      · rename_i hparse
        apply base
        rw [← hmy]
        simp only [accepted, List.filterMap_cons, List.filterMap_nil, if_neg hp, hparse]
      · rename_i f hparse
        constructor
        · show s.port = lastPort 0 (s.trace ++ [.got a p b] ++ [.delivered f])
          rw [lastPort_append, lastPort_append, h.port]; rfl
        · show some (s.myport.getD s.port) = firstPort 0 (s.trace ++ [.got a p b] ++ [.delivered f])
          rw [firstPort_append, ← hmy]; rfl
        · show firstPort 0 (s.trace ++ [.got a p b] ++ [.delivered f]) = none → _
          rw [firstPort_append, ← hmy]; intro hx; cases hx
        · show deliveredOf (s.trace ++ [.got a p b] ++ [.delivered f]) =
            accepted (firstPort 0 (s.trace ++ [.got a p b] ++ [.delivered f])) (gotsOf (s.trace ++ [.got a p b] ++ [.delivered f]))
          have e1 : deliveredOf (s.trace ++ [.got a p b] ++ [.delivered f]) = deliveredOf s.trace ++ [f] := by simp [deliveredOf]
          have e2 : gotsOf (s.trace ++ [.got a p b] ++ [.delivered f]) = gotsOf s.trace ++ [(a, p, b)] := by simp [gotsOf]
          have e3 : firstPort 0 (s.trace ++ [.got a p b] ++ [.delivered f]) = firstPort 0 (s.trace ++ [.got a p b]) := by
            rw [firstPort_append, ← hmy]; rfl
          rw [e1, e2, e3, accepted_append, ← hdel, ← h.delivered, ← hmy]
          simp only [accepted, List.filterMap_cons, List.filterMap_nil, if_neg hp, hparse]
        · intro _
          show openedOf (s.trace ++ [.got a p b] ++ [.delivered f]) ≠ []
          have : openedOf (s.trace ++ [.got a p b] ++ [.delivered f]) = openedOf s.trace := by simp [openedOf]
          rw [this]; exact hc
        · refine order_append hord ?_
          intro pre a' p' b' post he
          exfalso
          cases pre with
          | nil => injection he with he _; cases he
          | cons x pre =>
            injection he with _ he
            exact absurd he (by simp)

theorem step_rinv (s : State) (h : RInv s) (st : Step) : RInv (step s st) := by
  cases st with
  | put f => exact RInv.quiet s h _ [.put f] (by simp [Ev.quiet]) rfl rfl rfl id
  | round r =>
    simp only [step]
    split
    · unfold round
      split
      · rename_i hn
        split
        · exact RInv.quiet s h _ [.died] (by simp [Ev.quiet]) rfl rfl rfl id
        · rename_i q _
          have e1 : gotsOf (s.trace ++ [.opened q]) = gotsOf s.trace := by simp [gotsOf]
          have e2 : deliveredOf (s.trace ++ [.opened q]) = deliveredOf s.trace := by simp [deliveredOf]
          have e3 : openedOf (s.trace ++ [.opened q]) = openedOf s.trace ++ [q] := by simp [openedOf]
          have e4 : firstPort 0 (s.trace ++ [.opened q]) = firstPort 0 s.trace := by
            rw [firstPort_append]; simp [firstPort]
          constructor
          · show q = lastPort 0 (s.trace ++ [.opened q])
            rw [lastPort_append]; rfl
          · show s.myport = firstPort 0 (s.trace ++ [.opened q])
            rw [e4]; exact h.myport
          · show firstPort 0 (s.trace ++ [.opened q]) = none → gotsOf (s.trace ++ [.opened q]) = []
            rw [e4, e1]; exact h.none
          · show deliveredOf (s.trace ++ [.opened q]) = accepted (firstPort 0 (s.trace ++ [.opened q])) (gotsOf (s.trace ++ [.opened q]))
            rw [e4, e1, e2]; exact h.delivered
          · intro _
            show openedOf (s.trace ++ [.opened q]) ≠ []
            rw [e3]; simp
          · refine order_append h.order ?_
            intro pre a p b post he
            exfalso
            cases pre with
            | nil => injection he with he _; cases he
            | cons x pre =>
              injection he with _ he
              exact absurd he (by simp)
      · rename_i hn
        obtain ⟨l, h1, h2, h3, h4, h5⟩ := sendAll_spec s.queue r.fails s
        have hs := RInv.quiet s h _ l h1 h2 h3 h4 h5
        dsimp only
        split
        · apply receive_inv
          · exact ⟨hs.port, hs.myport, hs.none, hs.delivered,
              (by
                intro hc
                apply hs.opened
                cases hx : (sendAll s.queue r.fails s).needConnect with
                | false => rfl
                | true => simp [hx] at hc), hs.order⟩
          · have : openedOf s.trace ≠ [] := h.opened (by simpa using hn)
            show openedOf (sendAll s.queue r.fails s).trace ≠ []
            rw [h2]
            unfold openedOf at this ⊢
            rw [List.filterMap_append]
            intro h0
            exact this (List.append_eq_nil_iff.1 h0).1
        · exact hs
    · exact h

theorem run_rinv (steps : List Step) : RInv (run steps) := by
  have : ∀ s, RInv s → RInv (steps.foldl step s) := by
    induction steps with
    | nil => exact fun s h => h
    | cons st steps ih => exact fun s h => ih _ (step_rinv s h st)
  exact this _ ⟨rfl, rfl, fun _ => rfl, rfl, (by intro h; cases h), (by intro pre a p b post he; simp at he)⟩

/-! ## Theorems about reception -/

def frameA : CANFrame := ⟨0x123, [1, 2], true, false⟩
def bytesA : List Byte := (Packet.mcastPacket frameA).toOption.getD []

/-- The driver does not notice that it has a new port after reconnecting: it then receives its own frames. -/
def reconnected : List Step := [.round { connect := some 5000 }, .round { recv := .datagram 9 7000 bytesA }, .round { selectFails := true },
  .round { connect := some 6000 }, .put frameA, .round { recv := .datagram 1 6000 bytesA }]

/-- A sender on another machine with the same port is ignored. -/
def samePort : List Step := [.round { connect := some 5000 }, .round { recv := .datagram 9 5000 bytesA }]

theorem C89_own_counterexample : sentOf (run reconnected).trace = [bytesA] ∧ deliveredOf (run reconnected).trace = [frameA, frameA] ∧
    others 1 [] (run reconnected).trace = [bytesA] := by decide +kernel

theorem C89_port_counterexample : deliveredOf (run samePort).trace = [] ∧ (others 1 [] (run samePort).trace).filterMap Packet.mcastParse = [frameA] := by
  decide +kernel

theorem C89_counterexample : ¬ C89_statement := by
  intro h
  have := h 1 samePort
  rw [C89_port_counterexample.1, C89_port_counterexample.2] at this
  cases this

/-- What the code does: it delivers the frames of the packets from all ports except the one that its own socket had when the first
datagram arrived, in order. -/
theorem C89_exact_partial (steps : List Step) : deliveredOf (run steps).trace =
    (gotsOf (run steps).trace).filterMap (fun x => if firstPort 0 (run steps).trace = some x.2.1 then none else Packet.mcastParse x.2.2) :=
  (run_rinv steps).delivered

theorem others_nil (self : Nat) (own : List Nat) (t : List Ev) (h : ∀ pre a p b post, t = pre ++ .got a p b :: post → openedOf pre ≠ [])
    (ho : openedOf t = []) : others self own t = [] ∧ gotsOf t = [] := by
  have hg : ∀ a p b, Ev.got a p b ∉ t := by
    intro a p b hm
    obtain ⟨pre, post, rfl⟩ := List.append_of_mem hm
    apply h pre a p b post rfl
    unfold openedOf at ho ⊢
    rw [List.filterMap_append] at ho
    exact (List.append_eq_nil_iff.1 ho).1
  clear h
  induction t generalizing own with
  | nil => exact ⟨rfl, rfl⟩
  | cons e t ih =>
    have ih := fun own ho => ih own ho (fun a p b hm => hg a p b (List.mem_cons_of_mem _ hm))
    cases e with
    | got a p b => exact absurd List.mem_cons_self (hg a p b)
    | opened p => cases ho
    | put f => exact ih own ho
    | sent p b => exact ih own ho
    | lost f => exact ih own ho
    | died => exact ih own ho
    | delivered f => exact ih own ho

theorem others_one (self q : Nat) (t : List Ev) (ho : openedOf t = []) (hs : ∀ a b, Ev.got a q b ∈ t → a = self) :
    others self [q] t = (gotsOf t).filterMap (fun x => if x.2.1 = q then none else some x.2.2) := by
  induction t with
  | nil => rfl
  | cons e t ih =>
    have hs' := fun a b hm => hs a b (List.mem_cons_of_mem _ hm)
    cases e with
    | opened p => cases ho
    | got a p b =>
      have ih := ih ho hs'
      have hg : gotsOf (.got a p b :: t) = (a, p, b) :: gotsOf t := rfl
      rw [hg, List.filterMap_cons, others, ih]
      by_cases hp : p = q
      · subst hp
        rw [if_pos ⟨hs a b List.mem_cons_self, by simp⟩]
        simp
      · rw [if_neg (by simp [hp])]
        simp [hp]
    | put f => exact ih ho hs'
    | sent p b => exact ih ho hs'
    | lost f => exact ih ho hs'
    | died => exact ih ho hs'
    | delivered f => exact ih ho hs'

theorem others_split (self : Nat) (own : List Nat) (t : List Ev) (q : Nat) (h : ∀ pre a p b post, t = pre ++ .got a p b :: post → openedOf pre ≠ [])
    (ho : openedOf t = [q]) : ∃ t', openedOf t' = [] ∧ others self own t = others self (q :: own) t' ∧ gotsOf t = gotsOf t' ∧
      (∀ e, e ∈ t' → e ∈ t) ∧ ∀ p, firstPort p t = firstPort q t' := by
  induction t generalizing own with
  | nil => cases ho
  | cons e t ih =>
    have hpass : e.quiet = true ∨ (∃ f, e = .delivered f) → openedOf t = [q] := by
      rintro (he | ⟨f, rfl⟩)
      · cases e <;> first | exact ho | cases he
      · exact ho
    have hrec : (e.quiet = true ∨ ∃ f, e = .delivered f) → ∀ pre a p b post, t = pre ++ .got a p b :: post → openedOf pre ≠ [] := by
      intro he pre a p b post ht
      have := h (e :: pre) a p b post (by rw [ht]; rfl)
      rcases he with he | ⟨f, rfl⟩
      · cases e <;> first | exact this | cases he
      · exact this
    have go : (e.quiet = true ∨ ∃ f, e = .delivered f) → ∃ t', openedOf t' = [] ∧ others self own (e :: t) = others self (q :: own) t' ∧
        gotsOf (e :: t) = gotsOf t' ∧ (∀ x, x ∈ t' → x ∈ e :: t) ∧ ∀ p, firstPort p (e :: t) = firstPort q t' := by
      intro he
      obtain ⟨t', h1, h2, h3, h4, h5⟩ := ih own (hrec he) (hpass he)
      refine ⟨t', h1, ?_, ?_, fun x hx => List.mem_cons_of_mem _ (h4 x hx), ?_⟩
      · rw [← h2]
        rcases he with he | ⟨f, rfl⟩
        · cases e <;> first | rfl | cases he
        · rfl
      · rw [← h3]
        rcases he with he | ⟨f, rfl⟩
        · cases e <;> first | rfl | cases he
        · rfl
      · intro p
        rw [← h5 p]
        rcases he with he | ⟨f, rfl⟩
        · cases e <;> first | rfl | cases he
        · rfl
    cases e with
    | opened p =>
      have ho' : p :: openedOf t = [q] := ho
      injection ho' with h1 h2
      subst h1
      exact ⟨t, h2, rfl, rfl, fun x hx => List.mem_cons_of_mem _ hx, fun _ => rfl⟩
    | got a p b => exact absurd rfl (h [] a p b t rfl)
    | put f => exact go (.inl rfl)
    | sent p b => exact go (.inl rfl)
    | lost f => exact go (.inl rfl)
    | died => exact go (.inl rfl)
    | delivered f => exact go (.inr ⟨f, rfl⟩)

theorem firstPort_some (p : Nat) (t : List Ev) (ho : openedOf t = []) : firstPort p t = if gotsOf t = [] then none else some p := by
  induction t with
  | nil => rfl
  | cons e t ih =>
    cases e with
    | opened p => cases ho
    | got a q b => rfl
    | put f => exact ih ho
    | sent p b => exact ih ho
    | lost f => exact ih ho
    | died => exact ih ho
    | delivered f => exact ih ho

/-- The statement holds as long as the sockets do not fail, if no other machine sends from our port. -/
theorem C89_steady_partial (self : Nat) (steps : List Step) (ho : (openedOf (run steps).trace).length ≤ 1)
    (hs : ∀ a p b, .got a p b ∈ (run steps).trace → p ∈ openedOf (run steps).trace → a = self) :
    deliveredOf (run steps).trace = (others self [] (run steps).trace).filterMap Packet.mcastParse := by
  have h := run_rinv steps
  rw [h.delivered]
  cases hop : openedOf (run steps).trace with
  | nil =>
    obtain ⟨h1, h2⟩ := others_nil self [] _ h.order hop
    rw [h1, h2]
    rfl
  | cons q l =>
    have hl : l = [] := by
      rw [hop, List.length_cons] at ho
      exact List.eq_nil_of_length_eq_zero (by omega)
    subst hl
    obtain ⟨t', h1, h2, h3, h4, h5⟩ := others_split self [] _ q h.order hop
    rw [h2, h3, h5 0, firstPort_some q t' h1, others_one self q t' h1 (fun a b hm => hs a q b (h4 _ hm) (by rw [hop]; simp))]
    by_cases hg : gotsOf t' = []
    · rw [hg]; rfl
    · rw [if_neg hg, List.filterMap_filterMap]
      unfold accepted
      congr 1
      funext x
      by_cases hx : x.2.1 = q
      · simp [hx]
      · simp [hx, Ne.symm hx]

/-! ## Transmission -/

/-- `done`: the frames dealt with, and whether they were sent; `bad`: the frame that ended the process. -/
structure SInv (s : State) (done : List (CANFrame × Bool)) (bad : List CANFrame) : Prop where
  puts : putsOf s.trace = done.map Prod.fst ++ bad ++ s.queue
  sent : sentOf s.trace = done.filterMap (fun x => if x.2 then (Packet.mcastPacket x.1).toOption else none)
  lost : lostOf s.trace = done.filterMap (fun x => if x.2 then none else some x.1)
  valid : ∀ x ∈ done, ∃ p, Packet.mcastPacket x.1 = .ok p
  bad : bad = [] ∨ (∃ f e, bad = [f] ∧ Packet.mcastPacket f = .error e) ∧ s.alive = false

theorem SInv.keep (s : State) (done : List (CANFrame × Bool)) (bad : List CANFrame) (h : SInv s done bad) (s' : State)
    (h1 : putsOf s'.trace = putsOf s.trace) (h2 : sentOf s'.trace = sentOf s.trace) (h3 : lostOf s'.trace = lostOf s.trace)
    (h4 : s'.queue = s.queue) (h5 : s'.alive = true → s.alive = true) : SInv s' done bad := by
  refine ⟨by rw [h1, h4]; exact h.puts, by rw [h2]; exact h.sent, by rw [h3]; exact h.lost, h.valid, ?_⟩
  rcases h.bad with hb | ⟨hb, ha⟩
  · exact .inl hb
  · refine .inr ⟨hb, ?_⟩
    cases hx : s'.alive with
    | false => rfl
    | true => rw [h5 hx] at ha; cases ha

theorem sendAll_sinv (fs : List CANFrame) (fails : List Bool) (s : State) (done : List (CANFrame × Bool)) (hq : s.queue = fs)
    (h : SInv s done []) : ∃ more bad, SInv (sendAll fs fails s) (done ++ more) bad ∧
      ((sendAll fs fails s).alive = true → (sendAll fs fails s).queue = []) := by
  suffices H : ∀ (fs : List CANFrame) (fails : List Bool) (s : State) (done : List (CANFrame × Bool)),
      putsOf s.trace = done.map Prod.fst ++ fs → sentOf s.trace = done.filterMap (fun x => if x.2 then (Packet.mcastPacket x.1).toOption else none) →
      lostOf s.trace = done.filterMap (fun x => if x.2 then none else some x.1) → (∀ x ∈ done, ∃ p, Packet.mcastPacket x.1 = .ok p) →
      ∃ more bad, SInv (sendAll fs fails s) (done ++ more) bad ∧ ((sendAll fs fails s).alive = true → (sendAll fs fails s).queue = []) by
    exact H fs fails s done (by rw [h.puts, hq, List.append_nil]) h.sent h.lost h.valid
  intro fs
  induction fs with
  | nil =>
    intro fails s done h1 h2 h3 h4
    refine ⟨[], [], ?_, fun _ => rfl⟩
    rw [List.append_nil]
    exact ⟨by rw [List.append_nil]; exact h1, h2, h3, h4, .inl rfl⟩
  | cons f fs ih =>
    intro fails s done h1 h2 h3 h4
    simp only [sendAll]
    split
    · rename_i e he
      refine ⟨[], [f], ?_, ?_⟩
      · rw [List.append_nil]
        refine ⟨?_, ?_, ?_, h4, .inr ⟨⟨f, e, rfl, he⟩, rfl⟩⟩
        · have : putsOf (s.trace ++ [.died]) = putsOf s.trace := by simp [putsOf]
          show putsOf (s.trace ++ [.died]) = _
          rw [this, h1]; simp
        · have : sentOf (s.trace ++ [.died]) = sentOf s.trace := by simp [sentOf]
          show sentOf (s.trace ++ [.died]) = _
          rw [this, h2]
        · have : lostOf (s.trace ++ [.died]) = lostOf s.trace := by simp [lostOf]
          show lostOf (s.trace ++ [.died]) = _
          rw [this, h3]
      · intro ha; cases ha
    · rename_i p hp
      split
      · obtain ⟨more, bad, hi, hq⟩ := ih fails.tail { s with
            needConnect := true
            trace := s.trace ++ [.lost f] } (done ++ [(f, false)]) (by
              have : putsOf (s.trace ++ [.lost f]) = putsOf s.trace := by simp [putsOf]
              show putsOf (s.trace ++ [.lost f]) = _
              rw [this, h1]; simp) (by
              have : sentOf (s.trace ++ [.lost f]) = sentOf s.trace := by simp [sentOf]
              show sentOf (s.trace ++ [.lost f]) = _
              rw [this, h2, List.filterMap_append]; simp) (by
              have : lostOf (s.trace ++ [.lost f]) = lostOf s.trace ++ [f] := by simp [lostOf]
              show lostOf (s.trace ++ [.lost f]) = _
              rw [this, h3, List.filterMap_append]; simp) (by
              intro x hx
              rcases List.mem_append.1 hx with hx | hx
              · exact h4 x hx
              · rw [List.mem_singleton.1 hx]; exact ⟨p, hp⟩)
        exact ⟨(f, false) :: more, bad, by rw [List.append_assoc] at hi; exact hi, hq⟩
      · obtain ⟨more, bad, hi, hq⟩ := ih fails.tail { s with trace := s.trace ++ [.sent s.port p] } (done ++ [(f, true)]) (by
              have : putsOf (s.trace ++ [.sent s.port p]) = putsOf s.trace := by simp [putsOf]
              show putsOf (s.trace ++ [.sent s.port p]) = _
              rw [this, h1]; simp) (by
              have : sentOf (s.trace ++ [.sent s.port p]) = sentOf s.trace ++ [p] := by simp [sentOf]
              show sentOf (s.trace ++ [.sent s.port p]) = _
              rw [this, h2, List.filterMap_append]; simp [hp, Except.toOption]) (by
              have : lostOf (s.trace ++ [.sent s.port p]) = lostOf s.trace := by simp [lostOf]
              show lostOf (s.trace ++ [.sent s.port p]) = _
              rw [this, h3, List.filterMap_append]; simp) (by
              intro x hx
              rcases List.mem_append.1 hx with hx | hx
              · exact h4 x hx
              · rw [List.mem_singleton.1 hx]; exact ⟨p, hp⟩)
        exact ⟨(f, true) :: more, bad, by rw [List.append_assoc] at hi; exact hi, hq⟩

theorem receive_same (r : Recv) (s : State) : putsOf (receive r s).trace = putsOf s.trace ∧ sentOf (receive r s).trace = sentOf s.trace ∧
    lostOf (receive r s).trace = lostOf s.trace ∧ (receive r s).queue = s.queue ∧ (receive r s).alive = s.alive := by
  cases r with
  | nothing => exact ⟨rfl, rfl, rfl, rfl, rfl⟩
  | error => exact ⟨rfl, rfl, rfl, rfl, rfl⟩
  | datagram a p b =>
    simp only [receive]
    split
    · refine ⟨?_, ?_, ?_, rfl, rfl⟩ <;> simp [putsOf, sentOf, lostOf]
    · split
      · refine ⟨?_, ?_, ?_, rfl, rfl⟩ <;> simp [putsOf, sentOf, lostOf]
      · refine ⟨?_, ?_, ?_, rfl, rfl⟩ <;> simp [putsOf, sentOf, lostOf]

theorem step_sinv (s : State) (done : List (CANFrame × Bool)) (bad : List CANFrame) (h : SInv s done bad) (st : Step) :
    ∃ done' bad', SInv (step s st) done' bad' := by
  cases st with
  | put f =>
    refine ⟨done, bad, ?_, ?_, ?_, h.valid, h.bad⟩
    · have : putsOf (s.trace ++ [.put f]) = putsOf s.trace ++ [f] := by simp [putsOf]
      show putsOf (s.trace ++ [.put f]) = _ ++ (s.queue ++ [f])
      rw [this, h.puts, List.append_assoc]
    · have : sentOf (s.trace ++ [.put f]) = sentOf s.trace := by simp [sentOf]
      show sentOf (s.trace ++ [.put f]) = _
      rw [this, h.sent]
    · have : lostOf (s.trace ++ [.put f]) = lostOf s.trace := by simp [lostOf]
      show lostOf (s.trace ++ [.put f]) = _
      rw [this, h.lost]
  | round r =>
    simp only [step]
    split
    · rename_i ha
      have hb : bad = [] := by
        rcases h.bad with hb | ⟨-, hb⟩
        · exact hb
        · rw [ha] at hb; cases hb
      subst hb
      unfold round
      split
      · split
        · refine ⟨done, [], SInv.keep s done [] h _ ?_ ?_ ?_ rfl (by intro hx; cases hx)⟩ <;> simp [putsOf, sentOf, lostOf]
        · refine ⟨done, [], SInv.keep s done [] h _ ?_ ?_ ?_ rfl id⟩ <;> simp [putsOf, sentOf, lostOf]
      · obtain ⟨more, bad, hi, -⟩ := sendAll_sinv s.queue r.fails s done rfl h
        dsimp only
        split
        · obtain ⟨r1, r2, r3, r4, r5⟩ := receive_same r.recv { sendAll s.queue r.fails s with
            needConnect := (sendAll s.queue r.fails s).needConnect || r.selectFails }
          exact ⟨done ++ more, bad, SInv.keep _ _ _ hi _ r1 r2 r3 r4 (by rw [r5]; exact id)⟩
        · exact ⟨done ++ more, bad, hi⟩
    · exact ⟨done, bad, h⟩

theorem run_sinv (steps : List Step) : ∃ done bad, SInv (run steps) done bad := by
  have : ∀ s done bad, SInv s done bad → ∃ done bad, SInv (steps.foldl step s) done bad := by
    induction steps with
    | nil => exact fun s done bad h => ⟨done, bad, h⟩
    | cons st steps ih =>
      intro s done bad h
      obtain ⟨d, b, h'⟩ := step_sinv s done bad h st
      exact ih _ d b h'
  exact this {} [] [] ⟨rfl, rfl, rfl, by simp, .inl rfl⟩

/-- Every frame of the queue is sent once, in order, except those for which the socket raises, which are lost. An identifier of more than
32 bits ends the process. -/
theorem C90_sent (steps : List Step) : ∃ (done : List (CANFrame × Bool)) (rest : List CANFrame),
    putsOf (run steps).trace = done.map Prod.fst ++ rest ∧
    sentOf (run steps).trace = done.filterMap (fun x => if x.2 then (Packet.mcastPacket x.1).toOption else none) ∧
    lostOf (run steps).trace = done.filterMap (fun x => if x.2 then none else some x.1) ∧
    ((run steps).alive = true → rest = (run steps).queue) := by
  obtain ⟨done, bad, h⟩ := run_sinv steps
  refine ⟨done, bad ++ (run steps).queue, by rw [h.puts, List.append_assoc], h.sent, h.lost, ?_⟩
  intro ha
  rcases h.bad with hb | ⟨-, hb⟩
  · rw [hb]; rfl
  · rw [ha] at hb; cases hb

/-- If the socket never raised and the queue is empty then all frames were sent, in order. -/
theorem C90_all (steps : List Step) (ha : (run steps).alive = true) (hq : (run steps).queue = []) (hl : lostOf (run steps).trace = []) :
    (sentOf (run steps).trace).map some = (putsOf (run steps).trace).map (fun f => (Packet.mcastPacket f).toOption) := by
  obtain ⟨done, bad, h⟩ := run_sinv steps
  have hb : bad = [] := by
    rcases h.bad with hb | ⟨-, hb⟩
    · exact hb
    · rw [ha] at hb; cases hb
  have hall : ∀ x ∈ done, x.2 = true := by
    intro x hx
    cases hx2 : x.2 with
    | true => rfl
    | false =>
      have : x.1 ∈ lostOf (run steps).trace := by
        rw [h.lost]
        exact List.mem_filterMap.2 ⟨x, hx, by simp [hx2]⟩
      rw [hl] at this
      cases this
  have hv := h.valid
  rw [h.puts, hb, hq, List.append_nil, List.append_nil, h.sent]
  clear h
  induction done with
  | nil => rfl
  | cons x done ih =>
    have ih := ih (fun y hy => hall y (List.mem_cons_of_mem _ hy)) (fun y hy => hv y (List.mem_cons_of_mem _ hy))
    obtain ⟨p, hp⟩ := hv x List.mem_cons_self
    have hx : (Packet.mcastPacket x.1).toOption = some p := by rw [hp]; rfl
    simp only [List.filterMap_cons, hall x List.mem_cons_self, if_true, hx, List.map_cons]
    rw [ih]

/-- A round with open sockets deals with the whole queue. -/
theorem C90_round (steps : List Step) (r : Round) (hn : (run steps).needConnect = false) :
    (run (steps ++ [.round r])).alive = true → (run (steps ++ [.round r])).queue = [] := by
  have hrun : run (steps ++ [.round r]) = step (run steps) (.round r) := by simp [run]
  rw [hrun]
  obtain ⟨done, bad, h⟩ := run_sinv steps
  generalize run steps = s at hn h
  cases ha : s.alive with
  | false => simp [step, ha]
  | true =>
    have hb : bad = [] := by
      rcases h.bad with hb | ⟨-, hb⟩
      · exact hb
      · rw [ha] at hb; cases hb
    subst hb
    obtain ⟨more, bad, -, hq⟩ := sendAll_sinv s.queue r.fails s done rfl h
    simp only [step, ha, if_true, round, hn]
    simp only [Bool.false_eq_true, if_false]
    split
    · rename_i hal
      obtain ⟨-, -, -, r4, r5⟩ := receive_same r.recv { sendAll s.queue r.fails s with
        needConnect := (sendAll s.queue r.fails s).needConnect || r.selectFails }
      intro _
      rw [r4]
      exact hq hal
    · intro hx; exact hq hx

/-- Two rounds deal with whatever is in the queue, be the sockets open or not. -/
theorem C90_prompt (steps : List Step) (r₁ r₂ : Round) (ha : (run (steps ++ [.round r₁, .round r₂])).alive = true) :
    (run (steps ++ [.round r₁, .round r₂])).queue = [] := by
  have e₁ : run (steps ++ [.round r₁, .round r₂]) = run ((steps ++ [.round r₁]) ++ [.round r₂]) := by simp
  rw [e₁] at ha ⊢
  cases hn : (run (steps ++ [.round r₁])).needConnect with
  | false => exact C90_round _ r₂ hn ha
  | true =>
    have e₂ : run ((steps ++ [.round r₁]) ++ [.round r₂]) = step (run (steps ++ [.round r₁])) (.round r₂) := by simp [run]
    have ha₁ : (run (steps ++ [.round r₁])).alive = true := by
      rw [e₂] at ha
      cases h : (run (steps ++ [.round r₁])).alive with
      | true => rfl
      | false => simp [step, h] at ha
    have hq : (step (run (steps ++ [.round r₁])) (.round r₂)).queue = (run (steps ++ [.round r₁])).queue := by
      simp only [step, ha₁, if_true, round, hn]
      split <;> rfl
    rw [e₂, hq]
    cases hn₀ : (run steps).needConnect with
    | false => exact C90_round _ r₁ hn₀ ha₁
    | true =>
      exfalso
      have e₃ : run (steps ++ [.round r₁]) = step (run steps) (.round r₁) := by simp [run]
      rw [e₃] at ha₁ hn
      cases h : (run steps).alive with
      | false => simp [step, h] at ha₁
      | true =>
        simp only [step, h, if_true, round, hn₀] at ha₁ hn
        cases hc : r₁.connect with
        | none => simp [hc] at ha₁
        | some p => simp [hc] at hn

/-- How often the socket raises. -/
def raises : List Step → Nat
  | [] => 0
  | .round r :: steps => r.fails.count true + raises steps
  | .put _ :: steps => raises steps

/-- No more frames are lost than calls of `send` raise; in particular, none if none does. -/
theorem C90_lost (steps : List Step) : (lostOf (run steps).trace).length ≤ raises steps := by
  have hsend : ∀ (fs : List CANFrame) fails (s : State),
      (lostOf (sendAll fs fails s).trace).length ≤ (lostOf s.trace).length + fails.count true := by
    intro fs
    induction fs with
    | nil => exact fun fails s => Nat.le_add_right ..
    | cons f fs ih =>
      intro fails s
      simp only [sendAll]
      split
      · simp [lostOf]
      · rename_i p hp
        split
        · rename_i hf
          cases fails with
          | nil => cases hf
          | cons b fails =>
            have hb : b = true := hf
            subst hb
            refine Nat.le_trans (ih _ _) ?_
            simp [lostOf]
            omega
        · refine Nat.le_trans (ih _ _) ?_
          have : lostOf (s.trace ++ [.sent s.port p]) = lostOf s.trace := by simp [lostOf]
          simp only [this]
          cases fails with
          | nil => simp
          | cons b fails => simp only [List.tail_cons, List.count_cons]; omega
  have key : ∀ (steps : List Step) (s : State), (lostOf (steps.foldl step s).trace).length ≤ (lostOf s.trace).length + raises steps := by
    intro steps
    induction steps with
    | nil => exact fun s => Nat.le_refl _
    | cons st steps ih =>
      intro s
      refine Nat.le_trans (ih (step s st)) ?_
      cases st with
      | put f =>
        have : lostOf (s.trace ++ [.put f]) = lostOf s.trace := by simp [lostOf]
        simp only [step, raises, this]
        exact Nat.le_refl _
      | round r =>
        have hr : (lostOf (step s (.round r)).trace).length ≤ (lostOf s.trace).length + r.fails.count true := by
          simp only [step]
          split
          · unfold round
            split
            · split <;> simp [lostOf]
            · obtain ⟨-, -, r3, -, -⟩ := receive_same r.recv { sendAll s.queue r.fails s with
                needConnect := (sendAll s.queue r.fails s).needConnect || r.selectFails }
              dsimp only
              split
              · rw [r3]
                exact hsend s.queue r.fails s
              · exact hsend s.queue r.fails s
          · exact Nat.le_add_right ..
        simp only [raises]
        omega
  have := key steps {}
  simpa [lostOf, run] using this

/-- The process only ends when the sockets cannot be opened or a frame has an identifier that does not fit into 32 bits. -/
theorem C90_alive (steps : List Step) (hc : ∀ r, .round r ∈ steps → r.connect ≠ none)
    (hf : ∀ f, .put f ∈ steps → ∃ p, Packet.mcastPacket f = .ok p) : (run steps).alive = true := by
  have hsend : ∀ (fs : List CANFrame) fails (s : State), (∀ f ∈ fs, ∃ p, Packet.mcastPacket f = .ok p) → s.alive = true →
      (sendAll fs fails s).alive = true ∧ (sendAll fs fails s).queue = [] := by
    intro fs
    induction fs with
    | nil => exact fun _ _ _ h => ⟨h, rfl⟩
    | cons f fs ih =>
      intro fails s h ha
      obtain ⟨p, hp⟩ := h f List.mem_cons_self
      simp only [sendAll, hp]
      split
      · exact ih _ _ (fun x hx => h x (List.mem_cons_of_mem _ hx)) ha
      · exact ih _ _ (fun x hx => h x (List.mem_cons_of_mem _ hx)) ha
  have : ∀ (s : State), (∀ f ∈ s.queue, ∃ p, Packet.mcastPacket f = .ok p) → s.alive = true → (steps.foldl step s).alive = true := by
    induction steps with
    | nil => exact fun s _ h => h
    | cons st steps ih =>
      intro s hq ha
      have ih := ih (fun r hr => hc r (List.mem_cons_of_mem _ hr)) (fun f hr => hf f (List.mem_cons_of_mem _ hr))
      have key : (∀ f ∈ (step s st).queue, ∃ p, Packet.mcastPacket f = .ok p) ∧ (step s st).alive = true := by
        cases st with
        | put f =>
          refine ⟨?_, ha⟩
          intro g hg
          rcases List.mem_append.1 hg with hg | hg
          · exact hq g hg
          · rw [List.mem_singleton.1 hg]; exact hf f List.mem_cons_self
        | round r =>
          have hcr := hc r List.mem_cons_self
          simp only [step, ha, if_true]
          unfold round
          split
          · split
            · rename_i hr
              exact absurd hr hcr
            · exact ⟨hq, ha⟩
          · obtain ⟨h1, h2⟩ := hsend s.queue r.fails s hq ha
            obtain ⟨-, -, -, r4, r5⟩ := receive_same r.recv { sendAll s.queue r.fails s with
              needConnect := (sendAll s.queue r.fails s).needConnect || r.selectFails }
            dsimp only
            rw [if_pos h1]
            refine ⟨?_, by rw [r5]; exact h1⟩
            rw [r4]
            show ∀ f ∈ (sendAll s.queue r.fails s).queue, _
            rw [h2]
            intro f hf'; cases hf'
      exact ih _ key.1 key.2
  exact this {} (by intro f hf'; cases hf') rfl

/-! ## Examples -/

def traffic : List Step := [.put frameA, .round { connect := some 5000 }, .round { recv := .datagram 1 5000 bytesA },
  .round { recv := .datagram 9 7000 bytesA }, .put frameA, .round { fails := [true] }]

example : (run traffic).trace = [.put frameA, .opened 5000, .sent 5000 bytesA, .got 1 5000 bytesA, .got 9 7000 bytesA, .delivered frameA,
    .put frameA, .lost frameA] := by decide +kernel

/-- The hypotheses of `C90_all` and `C90_round` hold before the last two steps. -/
example : (run (traffic.take 4)).alive = true ∧ (run (traffic.take 4)).queue = [] ∧ lostOf (run (traffic.take 4)).trace = [] ∧
    (run (traffic.take 4)).needConnect = false ∧ sentOf (run (traffic.take 4)).trace = [bytesA] := by decide +kernel

/-- `C90_lost` is exact here. -/
example : raises traffic = 1 ∧ lostOf (run traffic).trace = [frameA] := by decide +kernel

/-- The hypotheses of `C90_alive`. -/
example : ∃ p, Packet.mcastPacket frameA = .ok p := ⟨_, rfl⟩

/-- An identifier of 33 bits ends the process. -/
example : (run [.round { connect := some 1 }, .put ⟨2 ^ 32, [], false, false⟩, .put frameA, .round {}]).trace.getLast? = some .died := by decide +kernel

/-- The hypotheses of `C89_steady_partial` hold for it. -/
example : (openedOf (run traffic).trace).length ≤ 1 ∧ ∀ x ∈ gotsOf (run traffic).trace, x.2.1 ∈ openedOf (run traffic).trace → x.1 = 1 := by
  decide +kernel

end Mcast
end Dronecan
