import Verif.Props.Handled

/-!
# Requests for handlers of requests, responses for handlers of responses (C114)
-/

namespace Dronecan
open Node Dispatch PyM

/-! ## Specification -/

/-- The direction that a handler of a service was registered for: responses with `sniff_response`, requests without. -/
def Direction (e : HEntry) (tr : InTransfer) : Prop := tr.header.request = !e.sniff

/-- C114: in no history a handler of a service is called with a transfer of the other direction. -/
def C114_statement : Prop := ∀ (env : Env) (_ : Quiet env) (first ops : List Op) (_ : QuietOps ops) (nid : Option Nat) (t0 : Int) (iv : Option Int)
  (fd : Bool) (it : Nat × Bool) (s : Node) (_ : s = run env first (init nid t0 iv true fd it)) (t : List Ev)
  (_ : (run env ops s).trace = s.trace ++ t) (e : HEntry) (_ : e ∈ s.hlists s.hcur) (tr : InTransfer)
  (_ : Ev.called (.handler e.uid tr) ∈ t) (_ : ∃ id, e.type = some (id, true)), Direction e tr

/-! ## Proofs -/

variable {env : Env}

theorem entry_of_uid {s : Node} (h : TableOk s) {a b : HEntry} (ha : a ∈ s.hlists s.hcur) (hb : b ∈ s.hlists s.hcur) (hu : a.uid = b.uid) : a = b := by
  have hp := h.1
  revert ha hb hp
  generalize s.hlists s.hcur = l
  induction l with
  | nil => intro ha; exact absurd ha List.not_mem_nil
  | cons c l ih =>
    intro ha hb hp
    rw [List.pairwise_cons] at hp
    rcases List.mem_cons.1 ha with e1 | h1
    · rcases List.mem_cons.1 hb with e2 | h2
      · rw [e1, e2]
      · exact absurd (e1 ▸ hu) (hp.1 b h2)
    · rcases List.mem_cons.1 hb with e2 | h2
      · exact absurd (e2 ▸ hu.symm) (hp.1 a h1)
      · exact ih h1 h2 hp.2

/-- The exact circumstances in which a registered handler is called, in any history: it wants the transfer, and the transfer is a message, a request
to this node, or a response to another node of a service for which some handler sniffs. -/
theorem C114_when (hq : Quiet env) (first ops : List Op) (hops : QuietOps ops) (nid : Option Nat) (t0 : Int) (iv : Option Int) (ce fd : Bool)
    (it : Nat × Bool) (s : Node) (hs : s = run env first (init nid t0 iv ce fd it)) (hce : s.catchExc = true) (t : List Ev)
    (ht : (run env ops s).trace = s.trace ++ t) (e : HEntry) (he : e ∈ s.hlists s.hcur) (tr : InTransfer) :
    Ev.called (.handler e.uid tr) ∈ t ↔
      (∃ m, Ev.received m tr ∈ t) ∧ Wants e.type tr.header ∧ Offered s.nodeId (s.hlists s.hcur) tr := by
  have hok : TableOk s := by rw [hs]; exact C27_handles_distinct env first nid t0 iv ce fd it
  constructor
  · intro hc
    obtain ⟨h1, h2⟩ := C92_only hq ops hops s hce t ht e.uid tr hc
    unfold callees at h2
    split at h2
    · next ho =>
      obtain ⟨e', he', hu⟩ := List.mem_map.1 h2
      obtain ⟨hm, hw⟩ := List.mem_filter.1 he'
      have := entry_of_uid hok hm he hu
      subst this
      exact ⟨h1, by simpa using hw, ho⟩
    · exact absurd h2 List.not_mem_nil
  · intro ⟨⟨m, hm⟩, hw, ho⟩
    have hr : HandEv.received tr ∈ handLog t := List.mem_filterMap.2 ⟨_, hm, rfl⟩
    obtain ⟨a, b, hab⟩ := List.append_of_mem hr
    obtain ⟨b', hb⟩ := C92_each hq ops hops s hce t ht a b tr hab
    have hc : HandEv.called e.uid tr ∈ handLog t := by
      rw [hab, hb]
      refine List.mem_append_right _ (List.mem_cons_of_mem _ (List.mem_append_left _ (List.mem_map.2 ⟨e.uid, ?_, rfl⟩)))
      unfold callees
      rw [if_pos ho]
      exact List.mem_map.2 ⟨e, List.mem_filter.2 ⟨he, by simpa using hw⟩, rfl⟩
    obtain ⟨x, hx, hxe⟩ := List.mem_filterMap.1 hc
    cases x with
    | called c =>
      cases c with
      | handler u tr' =>
        simp only [handEv, Option.some.injEq, HandEv.called.injEq] at hxe
        obtain ⟨rfl, rfl⟩ := hxe
        exact hx
      | _ => simp [handEv] at hxe
    | _ => simp [handEv] at hxe

/-- What is missing of C114: a handler of a service is called with a transfer of the other direction exactly if it is a sniffing one and the transfer is a
request to this node, or it is not and the transfer is a response to another node and some other handler sniffs that service. -/
theorem C114_partial (hq : Quiet env) (first ops : List Op) (hops : QuietOps ops) (nid : Option Nat) (t0 : Int) (iv : Option Int) (ce fd : Bool)
    (it : Nat × Bool) (s : Node) (hs : s = run env first (init nid t0 iv ce fd it)) (hce : s.catchExc = true) (t : List Ev)
    (ht : (run env ops s).trace = s.trace ++ t) (e : HEntry) (he : e ∈ s.hlists s.hcur) (tr : InTransfer)
    (hc : Ev.called (.handler e.uid tr) ∈ t) (id : Nat) (hsv : e.type = some (id, true)) :
    Direction e tr ∨ (e.sniff = true ∧ tr.header.request = true ∧ tr.header.dest = s.nodeId) ∨
      (e.sniff = false ∧ tr.header.request = false ∧ tr.header.dest ≠ s.nodeId ∧ ∃ e' ∈ s.hlists s.hcur, e' ≠ e ∧ e'.type = e.type ∧ e'.sniff = true) := by
  obtain ⟨-, hw, ho⟩ := (C114_when hq first ops hops nid t0 iv ce fd it s hs hce t ht e he tr).1 hc
  have hw : (id, true) = (tr.header.dtid, tr.header.service) := by
    rw [hsv] at hw
    rcases hw with h | h
    · cases h
    · exact Option.some.inj h
  have hd : id = tr.header.dtid := congrArg Prod.fst hw
  have hsvc : tr.header.service = true := (congrArg Prod.snd hw).symm
  unfold Direction
  rcases ho with h | ⟨h1, h2⟩ | ⟨h1, h2, e', he', ht', hs'⟩
  · rw [hsvc] at h
    cases h
  · cases hsn : e.sniff with
    | true => exact .inr (.inl ⟨rfl, h1, h2⟩)
    | false => exact .inl (by rw [h1]; rfl)
  · cases hsn : e.sniff with
    | true => exact .inl (by rw [h1]; rfl)
    | false =>
      refine .inr (.inr ⟨rfl, h1, h2, e', he', ?_, ?_, hs'⟩)
      · intro heq
        rw [heq, hsn] at hs'
        cases hs'
      · rw [ht', hsv, hd]

/-- Messages never reach handlers of services, and service transfers never handlers of messages. -/
theorem C114_kinds (hq : Quiet env) (first ops : List Op) (hops : QuietOps ops) (nid : Option Nat) (t0 : Int) (iv : Option Int) (ce fd : Bool)
    (it : Nat × Bool) (s : Node) (hs : s = run env first (init nid t0 iv ce fd it)) (hce : s.catchExc = true) (t : List Ev)
    (ht : (run env ops s).trace = s.trace ++ t) (e : HEntry) (he : e ∈ s.hlists s.hcur) (tr : InTransfer)
    (hc : Ev.called (.handler e.uid tr) ∈ t) (id : Nat) (k : Bool) (hsv : e.type = some (id, k)) : tr.header.service = k ∧ tr.header.dtid = id := by
  obtain ⟨-, hw, -⟩ := (C114_when hq first ops hops nid t0 iv ce fd it s hs hce t ht e he tr).1 hc
  rw [hsv] at hw
  have hw : (id, k) = (tr.header.dtid, tr.header.service) := by
    rcases hw with h | h
    · cases h
    · exact Option.some.inj h
  exact ⟨(congrArg Prod.snd hw).symm, (congrArg Prod.fst hw).symm⟩

/-! ## Counterexample -/

/-- The service 1 (GetNodeInfo), which the node answers itself. -/
def sniffEnv : Env where
  db d sv := if d = 1 ∧ sv = true then some { dtid := 1, baseCrc := 0, msg := .comp false [] } else none
  script _ _ := {}
  statusPayload _ := { dt := { dtid := 341, baseCrc := 0, msg := .comp false [] }, val := .comp none [] }
  infoPayload _ := { dt := { dtid := 1, baseCrc := 0, msg := .comp false [] }, val := .comp none [] }
  lim := 3

/-- Node 9 with a sniffing handler, as a node monitor registers it. -/
def sniffer : Node := run sniffEnv [.api (.addHandler (some (1, true)) true)] (init (some 9) 0 none true false (1, true))

/-- A transfer of service 1 from node 3 to node `dest` in one frame. -/
def infoFrame (request : Bool) (dest : Nat) : RawFrame :=
  { id := 0x1E010083 + dest * 256 + if request then 0x8000 else 0, data := [0xC4#8], ts := some 77 }

/-- Who is called with what: the handle, the direction and the destination. -/
def calledWith (t : List Ev) : List (Nat × Bool × Option Nat) := t.filterMap fun
  | .called (.handler u tr) => some (u, tr.header.request, tr.header.dest)
  | _ => none

/-- Handler 0 is the node's own GetNodeInfo server, 1 the sniffing one: both see the request to node 9 and the response to node 5. -/
example : calledWith (run sniffEnv [.spin0 [some (infoFrame true 9), some (infoFrame false 5), some (infoFrame true 5), some (infoFrame false 9)] [0]]
    sniffer).trace = [(0, true, some 9), (1, true, some 9), (0, false, some 5), (1, false, some 5)] := by decide +kernel

example : (sniffer.hlists sniffer.hcur).map (fun e => (e.uid, e.type, e.sniff)) = [(0, some (1, true), false), (1, some (1, true), true)] := by
  decide +kernel

theorem C114_counterexample : ¬ C114_statement := by
  intro h
  have hq : Quiet sniffEnv := fun _ _ _ h => (List.not_mem_nil h).elim
  have hops : QuietOps [.spin0 [some (infoFrame true 9)] [0]] := by
    intro c h
    simp at h
  have hlen : (run sniffEnv [.spin0 [some (infoFrame true 9)] [0]] sniffer).trace = sniffer.trace ++
      (run sniffEnv [.spin0 [some (infoFrame true 9)] [0]] sniffer).trace := rfl
  have hx : ∃ tr, Ev.called (.handler 1 tr) ∈ (run sniffEnv [.spin0 [some (infoFrame true 9)] [0]] sniffer).trace ∧ tr.header.request = true := by
    have hm : (1, true, some 9) ∈ calledWith (run sniffEnv [.spin0 [some (infoFrame true 9)] [0]] sniffer).trace := by decide +kernel
    obtain ⟨x, hx, he⟩ := List.mem_filterMap.1 hm
    split at he
    · next u tr =>
      simp only [Option.some.injEq, Prod.mk.injEq] at he
      obtain ⟨rfl, h2, -⟩ := he
      exact ⟨tr, hx, h2⟩
    · cases he
  obtain ⟨tr, hc, hr⟩ := hx
  have := h sniffEnv hq [.api (.addHandler (some (1, true)) true)] _ hops (some 9) 0 none false (1, true) sniffer rfl _ hlen
    ⟨1, some (1, true), true, false⟩ (by decide +kernel) tr hc ⟨1, rfl⟩
  unfold Direction at this
  rw [hr] at this
  cases this

end Dronecan
