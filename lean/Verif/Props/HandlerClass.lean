import Verif.Model.HandlerClass

/-!
# C133: handlers that are classes
-/

namespace Dronecan
namespace HandlerClass
open PyM

variable {σ Kw Obj Resp : Type}

/-! ## Specification -/

/-- The registration is for the requests of a service. -/
def Reg.Serves (r : Reg σ Kw Obj Resp) : Prop := (∃ n, r.type = some (n, true)) ∧ r.sniff = false

/-- The attribute under which the event of a registration has the payload. -/
def Reg.attr (r : Reg σ Kw Obj Resp) : Attr :=
  match r.type, r.sniff with
  | some (_, true), true => .response
  | some (_, true), false => .request
  | _, _ => .message

/-- The event for a transfer. -/
def Reg.event (r : Reg σ Kw Obj Resp) (t : Xfer) : Event := ⟨r.attr, t⟩

/-- The registration is for such transfers. -/
def Reg.Wants (r : Reg σ Kw Obj Resp) (t : Xfer) : Prop := r.type = none ∨ r.type = some (t.header.dtid, t.header.service)

/-- How a transfer is handled by class `c`, registered by `r` as number `uid`: from state to state, with these events, and
perhaps an exception. One object is made, of the event and the keyword arguments; then one of its methods is called; then
`response` is read, and sent if it was a request. Nothing happens after an exception. -/
inductive Handled (env : Env σ Resp) (uid : Nat) (r : Reg σ Kw Obj Resp) (c : Cls σ Kw Obj Resp) (t : Xfer) :
    σ → List (Ev Kw Obj Resp) → Option Err → σ → Prop
  | ctor {s s' e} : c.init (r.event t) r.kw s = (.error e, s') → Handled env uid r c t s [.new uid (r.event t) r.kw] (some e) s'
  | request {s s' s'' e o} : r.Serves → c.init (r.event t) r.kw s = (.ok o, s') → c.onRequest o s' = (.error e, s'') →
      Handled env uid r c t s [.new uid (r.event t) r.kw, .onRequest uid o] (some e) s''
  | attr {s s1 s2 s3 e o} : r.Serves → c.init (r.event t) r.kw s = (.ok o, s1) → c.onRequest o s1 = (.ok (), s2) →
      c.response o s2 = (.error e, s3) →
      Handled env uid r c t s [.new uid (r.event t) r.kw, .onRequest uid o] (some e) s3
  | notRequest {s s1 s2 s3 x o} : r.Serves → c.init (r.event t) r.kw s = (.ok o, s1) → c.onRequest o s1 = (.ok (), s2) →
      c.response o s2 = (.ok x, s3) → t.header.request = false →
      Handled env uid r c t s [.new uid (r.event t) r.kw, .onRequest uid o] none s3
  | noAnswer {s s1 s2 s3 o} : r.Serves → c.init (r.event t) r.kw s = (.ok o, s1) → c.onRequest o s1 = (.ok (), s2) →
      c.response o s2 = (.ok none, s3) → t.header.request = true →
      Handled env uid r c t s [.new uid (r.event t) r.kw, .onRequest uid o] (some .uavcanException) s3
  | answered {s s1 s2 s3 s4 x o} : r.Serves → c.init (r.event t) r.kw s = (.ok o, s1) → c.onRequest o s1 = (.ok (), s2) →
      c.response o s2 = (.ok (some x), s3) → t.header.request = true →
      env.respond x t.header.source t.tid t.header.prio s3 = (.ok (), s4) →
      Handled env uid r c t s [.new uid (r.event t) r.kw, .onRequest uid o, .respond x t.header.source t.tid t.header.prio] none s4
  | notSent {s s1 s2 s3 s4 x o e} : r.Serves → c.init (r.event t) r.kw s = (.ok o, s1) → c.onRequest o s1 = (.ok (), s2) →
      c.response o s2 = (.ok (some x), s3) → t.header.request = true →
      env.respond x t.header.source t.tid t.header.prio s3 = (.error e, s4) →
      Handled env uid r c t s [.new uid (r.event t) r.kw, .onRequest uid o, .respond x t.header.source t.tid t.header.prio] (some e) s4
  | message {s s1 s2 o} : ¬ r.Serves → c.init (r.event t) r.kw s = (.ok o, s1) → c.onMessage o s1 = (.ok (), s2) →
      Handled env uid r c t s [.new uid (r.event t) r.kw, .onMessage uid o] none s2
  | messageRaised {s s1 s2 o e} : ¬ r.Serves → c.init (r.event t) r.kw s = (.ok o, s1) → c.onMessage o s1 = (.error e, s2) →
      Handled env uid r c t s [.new uid (r.event t) r.kw, .onMessage uid o] (some e) s2

/-- The exception of a result. -/
def err {α : Type} : Except Err α → Option Err
  | .ok _ => none
  | .error e => some e

/-! ## Proofs -/

theorem serves_iff (r : Reg σ Kw Obj Resp) : (isService r.type && !(r.sniff && isService r.type)) = true ↔ r.Serves := by
  unfold Reg.Serves isService
  rcases r with ⟨_ | ⟨n, _ | _⟩, h, _ | _, kw⟩ <;> simp

theorem event_eq (r : Reg σ Kw Obj Resp) (t : Xfer) :
    ({ attr := if isService r.type then (if r.sniff && isService r.type then Attr.response else .request) else .message, transfer := t } : Event) = r.event t := by
  unfold Reg.event Reg.attr isService
  rcases r with ⟨_ | ⟨n, _ | _⟩, h, _ | _, kw⟩ <;> simp

theorem accepts_iff (env : Env σ Resp) (uid : Nat) (r : Reg σ Kw Obj Resp) (t : Xfer) :
    (entry env uid r.type r.handler r.sniff r.kw).accepts t = true ↔ r.Wants t := by
  have : (entry env uid r.type r.handler r.sniff r.kw).type = r.type := by
    unfold entry; cases r.handler <;> rfl
  unfold Entry.accepts Reg.Wants
  rw [this]
  cases r.type <;> simp

theorem adapter_call (env : Env σ Resp) (uid : Nat) (r : Reg σ Kw Obj Resp) (c : Cls σ Kw Obj Resp) (h : r.handler = .cls c) (t : Xfer) :
    (entry env uid r.type r.handler r.sniff r.kw).call t =
      call env (isService r.type) (r.sniff && isService r.type) (adapter uid (isService r.type) (r.sniff && isService r.type) c r.kw) t := by
  rw [h]
  simp only [entry]
  cases r.sniff <;> cases isService r.type <;> rfl

/-- A transfer given to a class. -/
theorem C133_class (env : Env σ Resp) (uid : Nat) (r : Reg σ Kw Obj Resp) (c : Cls σ Kw Obj Resp) (h : r.handler = .cls c) (t : Xfer)
    (s : σ) (tr : List (Ev Kw Obj Resp)) :
    ∃ evs x s', (entry env uid r.type r.handler r.sniff r.kw).call t (s, tr) = (x, (s', tr ++ evs)) ∧ Handled env uid r c t s evs (err x) s' := by
  rw [adapter_call env uid r c h t]
  unfold call
  simp only [event_eq]
  by_cases hs : r.Serves
  · have hb := (serves_iff r).2 hs
    simp only [adapter, hb, if_true, bind_run, log, modify_run, app]
    rcases hi : c.init (r.event t) r.kw s with ⟨e | o, s1⟩
    · exact ⟨_, _, _, rfl, .ctor hi⟩
    simp only [hi]
    rcases hq : c.onRequest o s1 with ⟨e | u, s2⟩
    · exact ⟨_, _, _, by simp; exact ⟨rfl, rfl, rfl⟩, .request hs hi hq⟩
    simp only []
    rcases hr : c.response o s2 with ⟨e | x, s3⟩
    · exact ⟨_, _, _, by simp; exact ⟨rfl, rfl, rfl⟩, .attr hs hi hq hr⟩
    simp only []
    cases hreq : t.header.request with
    | false => exact ⟨_, _, _, by simp; exact ⟨rfl, rfl, rfl⟩, .notRequest hs hi hq hr hreq⟩
    | true =>
      cases x with
      | none => exact ⟨_, _, _, by simp [raise]; exact ⟨rfl, rfl, rfl⟩, .noAnswer hs hi hq hr hreq⟩
      | some x =>
        rcases hx : env.respond x t.header.source t.tid t.header.prio s3 with ⟨e | u, s4⟩
        · exact ⟨_, _, _, by simp [app, hx]; exact ⟨rfl, rfl, rfl⟩, .notSent hs hi hq hr hreq hx⟩
        · exact ⟨_, _, _, by simp [app, hx]; exact ⟨rfl, rfl, rfl⟩, .answered hs hi hq hr hreq hx⟩
  · have hb : (isService r.type && !(r.sniff && isService r.type)) = false := by
      rw [← Bool.not_eq_true]; exact fun hh => hs ((serves_iff r).1 hh)
    simp only [adapter, hb, bind_run, log, modify_run, app]
    rcases hi : c.init (r.event t) r.kw s with ⟨e | o, s1⟩
    · exact ⟨_, _, _, rfl, .ctor hi⟩
    simp only [hi]
    rcases hq : c.onMessage o s1 with ⟨e | u, s2⟩
    · exact ⟨_, _, _, by simp [app, hq]; exact ⟨rfl, rfl, rfl⟩, .messageRaised hs hi hq⟩
    · exact ⟨_, _, _, by simp [app, hq]; exact ⟨rfl, rfl, rfl⟩, .message hs hi hq⟩

/-- The exception that a function's result `v` for a transfer makes; `sent` is what comes of sending a response. -/
def Reg.complaint (r : Reg σ Kw Obj Resp) (t : Xfer) (v : Option Resp) (sent : Resp → Option Err) : Option Err → Prop := fun e =>
  (r.Serves → t.header.request = true → v = none → e = some .uavcanException) ∧
  (r.Serves → t.header.request = true → ∀ a, v = some a → e = sent a) ∧
  (r.Serves → t.header.request = false → e = none) ∧
  (¬ r.Serves → v = none → e = none) ∧ (¬ r.Serves → v ≠ none → e = some .uavcanException)

/-- A transfer given to a function: it is called once; then at most a response is sent, for a request. It is an error to return nothing
for a request, or something otherwise. -/
theorem C133_function (env : Env σ Resp) (uid : Nat) (r : Reg σ Kw Obj Resp) (f : Event → Kw → PyM σ (Option Resp)) (h : r.handler = .func f)
    (t : Xfer) (s : σ) (tr : List (Ev Kw Obj Resp)) :
    ∃ rest x s', (entry env uid r.type r.handler r.sniff r.kw).call t (s, tr) = (x, (s', tr ++ .called uid (r.event t) r.kw :: rest)) ∧
      (rest = [] ∨ r.Serves ∧ t.header.request = true ∧ ∃ a, (f (r.event t) r.kw s).1 = .ok (some a) ∧
        rest = [.respond a t.header.source t.tid t.header.prio]) ∧
      (∀ e s1, f (r.event t) r.kw s = (.error e, s1) → x = .error e ∧ s' = s1) ∧
      (∀ v s1, f (r.event t) r.kw s = (.ok v, s1) →
        r.complaint t v (fun a => err (env.respond a t.header.source t.tid t.header.prio s1).1) (err x)) := by
  rw [h]
  simp only [entry, call, event_eq, bind_run, log, modify_run, app]
  rcases hf : f (r.event t) r.kw s with ⟨e | x, s1⟩
  · exact ⟨[], _, _, by simp; exact ⟨rfl, rfl⟩, .inl rfl, fun e' s' h => (by cases h; exact ⟨rfl, rfl⟩), fun v s' h => by cases h⟩
  simp only []
  by_cases hs : r.Serves
  · have hb := (serves_iff r).2 hs
    simp only [hb, if_true]
    cases hreq : t.header.request with
    | false =>
      exact ⟨[], _, _, by simp; exact ⟨rfl, rfl⟩, .inl rfl, fun e' s' h => (by cases h), fun v s' h => by cases h; simp [Reg.complaint, hs, hreq, err]⟩
    | true =>
      cases x with
      | none =>
        exact ⟨[], _, _, by simp [raise]; exact ⟨rfl, rfl⟩, .inl rfl, fun e' s' h => (by cases h),
          fun v s' h => by cases h; simp [Reg.complaint, hs, hreq, err]⟩
      | some x =>
        refine ⟨[.respond x t.header.source t.tid t.header.prio], (env.respond x t.header.source t.tid t.header.prio s1).1,
          (env.respond x t.header.source t.tid t.header.prio s1).2, by simp [app], .inr ⟨hs, rfl, x, rfl, rfl⟩, fun e' s' h => (by cases h),
          fun v s' h => by cases h; simp [Reg.complaint, hs, hreq]⟩
  · have hb : (isService r.type && !(r.sniff && isService r.type)) = false := by
      rw [← Bool.not_eq_true]; exact fun hh => hs ((serves_iff r).1 hh)
    simp only [hb]
    cases x with
    | none =>
      exact ⟨[], _, _, by simp; exact ⟨rfl, rfl⟩, .inl rfl, fun e' s' h => (by cases h), fun v s' h => by cases h; simp [Reg.complaint, hs, err]⟩
    | some x =>
      exact ⟨[], _, _, by simp [raise]; exact ⟨rfl, rfl⟩, .inl rfl, fun e' s' h => (by cases h), fun v s' h => by cases h; simp [Reg.complaint, hs, err]⟩

/-! ## Whole runs -/

instance (r : Reg σ Kw Obj Resp) (t : Xfer) : Decidable (r.Wants t) := by unfold Reg.Wants; exact inferInstance

/-- What a handler that raises adds. -/
def mark (uid : Nat) (x : Except Err Unit) : List (Ev Kw Obj Resp) :=
  match err x with
  | none => []
  | some e => [.raised uid e]

theorem handlers_project {β : Type} (env : Env σ Resp) (hc : env.catchExc = true) (g : Ev Kw Obj Resp → Option β)
    (spec : Nat → Reg σ Kw Obj Resp → Xfer → List β) (t : Xfer) (l : List (Reg σ Kw Obj Resp × Nat))
    (h : ∀ p ∈ l, ∀ s tr, p.1.Wants t → ∃ evs x s', (entry env p.2 p.1.type p.1.handler p.1.sniff p.1.kw).call t (s, tr) = (x, (s', tr ++ evs)) ∧
      (evs ++ mark p.2 x).filterMap g = spec p.2 p.1 t) : ∀ s tr,
    ∃ evs s', callHandlers env t (l.map fun p => entry env p.2 p.1.type p.1.handler p.1.sniff p.1.kw) (s, tr) = (.ok (), (s', tr ++ evs)) ∧
      evs.filterMap g = l.flatMap fun p => if p.1.Wants t then spec p.2 p.1 t else [] := by
  induction l with
  | nil => intro s tr; exact ⟨[], s, by simp [callHandlers], rfl⟩
  | cons p l ih =>
    intro s tr
    have ih' := ih (fun q hq => h q (List.mem_cons_of_mem _ hq))
    by_cases hw : p.1.Wants t
    · obtain ⟨evs, x, s', h1, h2⟩ := h p List.mem_cons_self s tr hw
      obtain ⟨evs', s'', h3, h4⟩ := ih' s' (tr ++ (evs ++ mark p.2 x))
      refine ⟨(evs ++ mark p.2 x) ++ evs', s'', ?_, ?_⟩
      · have hacc := (accepts_iff env p.2 p.1 t).2 hw
        have huid : (entry env p.2 p.1.type p.1.handler p.1.sniff p.1.kw).uid = p.2 := by
          unfold entry; cases p.1.handler <;> rfl
        simp only [List.map_cons, callHandlers, bind_run, hacc, if_true, PyM.tryCatch, h1, huid]
        cases x with
        | ok u =>
          have : mark (Kw := Kw) (Obj := Obj) (Resp := Resp) p.2 (.ok u) = [] := rfl
          rw [this, List.append_nil] at h3
          simp only [this, List.append_nil, h3]
          simp
        | error e =>
          have : mark (Kw := Kw) (Obj := Obj) (Resp := Resp) p.2 (.error e) = [.raised p.2 e] := rfl
          rw [this] at h3
          simp only [this, log, modify_run, bind_run, hc, if_true, pure_run, List.append_assoc] at h3 ⊢
          rw [h3]
      · simp only [List.filterMap_append, List.flatMap_cons, if_pos hw, h4]
        rw [← h2, List.filterMap_append]
    · obtain ⟨evs', s'', h3, h4⟩ := ih' s tr
      refine ⟨evs', s'', ?_, ?_⟩
      · have hacc : (entry env p.2 p.1.type p.1.handler p.1.sniff p.1.kw).accepts t = false := by
          rw [← Bool.not_eq_true]; exact fun hh => hw ((accepts_iff env p.2 p.1 t).1 hh)
        simp only [List.map_cons, callHandlers, bind_run, hacc, pure_run, Bool.false_eq_true, if_false]
        exact h3
      · simp only [List.flatMap_cons, if_neg hw, h4, List.nil_append]

theorem deliver_project {β : Type} (env : Env σ Resp) (hc : env.catchExc = true) (g : Ev Kw Obj Resp → Option β)
    (spec : Nat → Reg σ Kw Obj Resp → Xfer → List β) (regs : List (Reg σ Kw Obj Resp))
    (h : ∀ p ∈ regs.zipIdx, ∀ t s tr, p.1.Wants t → ∃ evs x s', (entry env p.2 p.1.type p.1.handler p.1.sniff p.1.kw).call t (s, tr) = (x, (s', tr ++ evs)) ∧
      (evs ++ mark p.2 x).filterMap g = spec p.2 p.1 t) (ts : List Xfer) (a : σ) :
    (deliver env regs ts a).2.filterMap g = ts.flatMap fun t => regs.zipIdx.flatMap fun p => if p.1.Wants t then spec p.2 p.1 t else [] := by
  suffices H : ∀ s tr, ((ts.foldl (fun s t => (callHandlers env t (entries env regs) s).2) (s, tr)).2).filterMap g =
      tr.filterMap g ++ ts.flatMap fun t => regs.zipIdx.flatMap fun p => if p.1.Wants t then spec p.2 p.1 t else [] by
    simpa [deliver] using H a []
  induction ts with
  | nil => intro s tr; simp
  | cons t ts ih =>
    intro s tr
    obtain ⟨evs, s', h1, h2⟩ := handlers_project env hc g spec t regs.zipIdx (fun p hp => h p hp t) s tr
    have he : entries env regs = regs.zipIdx.map fun p => entry env p.2 p.1.type p.1.handler p.1.sniff p.1.kw := rfl
    simp only [List.foldl_cons, List.flatMap_cons, he, h1]
    rw [← he, ih, List.filterMap_append, h2, List.append_assoc]

/-- The handler is a class. -/
def Reg.isClass (r : Reg σ Kw Obj Resp) : Bool :=
  match r.handler with
  | .cls _ => true
  | .func _ => false

/-- A call of a class in the trace. -/
def newOf : Ev Kw Obj Resp → Option (Nat × Event × Kw)
  | .new uid e kw => some (uid, e, kw)
  | _ => none

theorem Handled.news {env : Env σ Resp} {uid : Nat} {r : Reg σ Kw Obj Resp} {c : Cls σ Kw Obj Resp} {t : Xfer} {s : σ} {evs : List (Ev Kw Obj Resp)}
    {x : Option Err} {s' : σ} (h : Handled env uid r c t s evs x s') : evs.filterMap newOf = [(uid, r.event t, r.kw)] := by
  cases h <;> rfl

/-- Of every transfer, every class registered for it makes one object, in the order of registration: of an event of its own,
which has the payload as `message`, `request` or `response` according to the registration, and of the keyword arguments. -/
theorem C133_new (env : Env σ Resp) (hc : env.catchExc = true) (regs : List (Reg σ Kw Obj Resp)) (ts : List Xfer) (a : σ) :
    (deliver env regs ts a).2.filterMap newOf =
      ts.flatMap fun t => regs.zipIdx.flatMap fun p => if p.1.Wants t then (if p.1.isClass then [(p.2, p.1.event t, p.1.kw)] else []) else [] := by
  refine deliver_project env hc newOf (fun u r t => if r.isClass then [(u, r.event t, r.kw)] else []) regs (fun p _ t s tr _ => ?_) ts a
  have hm : ∀ x, (mark p.2 x : List (Ev Kw Obj Resp)).filterMap newOf = [] := by
    intro x; cases x <;> rfl
  cases hh : p.1.handler with
  | cls c =>
    obtain ⟨evs, x, s', h1, h2⟩ := C133_class env p.2 p.1 c hh t s tr
    rw [hh] at h1
    refine ⟨evs, x, s', h1, ?_⟩
    simp only [List.filterMap_append, hm, h2.news, Reg.isClass, hh, if_true, List.append_nil]
  | func f =>
    obtain ⟨rest, x, s', h1, h2⟩ := C133_function env p.2 p.1 f hh t s tr
    rw [hh] at h1
    refine ⟨_, x, s', h1, ?_⟩
    simp only [List.filterMap_append, hm, Reg.isClass, hh, List.append_nil]
    rcases h2 with ⟨rfl | ⟨_, _, a, _, rfl⟩, _⟩ <;> rfl

theorem handlers_closed (env : Env σ Resp) (P : List (Ev Kw Obj Resp) → Prop) (h0 : P []) (ha : ∀ a b, P a → P b → P (a ++ b))
    (hr : ∀ u e, P [.raised u e]) (t : Xfer) (l : List (Reg σ Kw Obj Resp × Nat))
    (h : ∀ p ∈ l, ∀ s tr, p.1.Wants t → ∃ evs x s', (entry env p.2 p.1.type p.1.handler p.1.sniff p.1.kw).call t (s, tr) = (x, (s', tr ++ evs)) ∧ P evs) :
    ∀ s tr, ∃ evs x s', callHandlers env t (l.map fun p => entry env p.2 p.1.type p.1.handler p.1.sniff p.1.kw) (s, tr) = (x, (s', tr ++ evs)) ∧ P evs := by
  induction l with
  | nil => intro s tr; exact ⟨[], _, s, by simp [callHandlers]; rfl, h0⟩
  | cons p l ih =>
    intro s tr
    have ih' := ih (fun q hq => h q (List.mem_cons_of_mem _ hq))
    by_cases hw : p.1.Wants t
    · obtain ⟨evs, x, s', h1, h2⟩ := h p List.mem_cons_self s tr hw
      have hacc := (accepts_iff env p.2 p.1 t).2 hw
      cases x with
      | ok u =>
        obtain ⟨evs', x, s'', h3, h4⟩ := ih' s' (tr ++ evs)
        refine ⟨evs ++ evs', x, s'', ?_, ha _ _ h2 h4⟩
        simp only [List.map_cons, callHandlers, bind_run, hacc, if_true, PyM.tryCatch, h1]
        rw [h3, List.append_assoc]
      | error e =>
        have huid : (entry env p.2 p.1.type p.1.handler p.1.sniff p.1.kw).uid = p.2 := by
          unfold entry; cases p.1.handler <;> rfl
        cases hc : env.catchExc with
        | true =>
          obtain ⟨evs', x, s'', h3, h4⟩ := ih' s' ((tr ++ evs) ++ [.raised p.2 e])
          refine ⟨(evs ++ [.raised p.2 e]) ++ evs', x, s'', ?_, ha _ _ (ha _ _ h2 (hr _ _)) h4⟩
          simp only [List.map_cons, callHandlers, bind_run, hacc, if_true, PyM.tryCatch, h1, huid, log, modify_run, hc, pure_run]
          rw [h3]
          simp
        | false =>
          refine ⟨evs ++ [.raised p.2 e], .error e, s', ?_, ha _ _ h2 (hr _ _)⟩
          simp [callHandlers, hacc, PyM.tryCatch, h1, huid, log, hc]
    · obtain ⟨evs', x, s'', h3, h4⟩ := ih' s tr
      refine ⟨evs', x, s'', ?_, h4⟩
      have hacc : (entry env p.2 p.1.type p.1.handler p.1.sniff p.1.kw).accepts t = false := by
        rw [← Bool.not_eq_true]; exact fun hh => hw ((accepts_iff env p.2 p.1 t).1 hh)
      simp only [List.map_cons, callHandlers, bind_run, hacc, pure_run, Bool.false_eq_true, if_false]
      exact h3

theorem deliver_closed (env : Env σ Resp) (P : List (Ev Kw Obj Resp) → Prop) (h0 : P []) (ha : ∀ a b, P a → P b → P (a ++ b))
    (hr : ∀ u e, P [.raised u e]) (regs : List (Reg σ Kw Obj Resp)) (ts : List Xfer)
    (h : ∀ u r, regs[u]? = some r → ∀ t ∈ ts, ∀ s tr, r.Wants t → ∃ evs x s', (entry env u r.type r.handler r.sniff r.kw).call t (s, tr) = (x, (s', tr ++ evs)) ∧ P evs)
    (a : σ) : P (deliver env regs ts a).2 := by
  suffices H : ∀ ts' : List Xfer, (∀ t ∈ ts', t ∈ ts) → ∀ s tr, P tr → P (ts'.foldl (fun s t => (callHandlers env t (entries env regs) s).2) (s, tr)).2 from
    H ts (fun _ h => h) a [] h0
  intro ts'
  induction ts' with
  | nil => intro _ s tr hp; exact hp
  | cons t ts' ih =>
    intro hm s tr hp
    obtain ⟨evs, x, s', h1, h2⟩ := handlers_closed env P h0 ha hr t regs.zipIdx
      (fun p hp s tr hw => h p.2 p.1 (List.mem_zipIdx_iff_getElem?.1 hp) t (hm t List.mem_cons_self) s tr hw) s tr
    have he : entries env regs = regs.zipIdx.map fun p => entry env p.2 p.1.type p.1.handler p.1.sniff p.1.kw := rfl
    simp only [List.foldl_cons]
    rw [show (callHandlers env t (entries env regs) (s, tr)).2 = (s', tr ++ evs) by rw [he, h1]]
    exact ih (fun t ht => hm t (List.mem_cons_of_mem _ ht)) s' _ (ha _ _ hp h2)

/-- With `catch_handler_exceptions` false, the first exception ends the delivery and reaches the caller: later handlers are not called. -/
theorem C133_uncaught (env : Env σ Resp) (hc : env.catchExc = false) (t : Xfer) (s s' : σ) (tr evs : List (Ev Kw Obj Resp)) (e : Err)
    (pre post : List (Reg σ Kw Obj Resp)) (r : Reg σ Kw Obj Resp) (hpre : ∀ q ∈ pre, ¬ q.Wants t) (hw : r.Wants t)
    (h : (entry env pre.length r.type r.handler r.sniff r.kw).call t (s, tr) = (.error e, (s', tr ++ evs))) :
    callHandlers env t (entries env (pre ++ r :: post)) (s, tr) = (.error e, (s', tr ++ evs ++ [.raised pre.length e])) := by
  have key : ∀ (pre : List (Reg σ Kw Obj Resp)) (k : Nat), (∀ q ∈ pre, ¬ q.Wants t) →
      (entry env (k + pre.length) r.type r.handler r.sniff r.kw).call t (s, tr) = (.error e, (s', tr ++ evs)) →
      callHandlers env t (((pre ++ r :: post).zipIdx k).map fun p => entry env p.2 p.1.type p.1.handler p.1.sniff p.1.kw) (s, tr) =
        (.error e, (s', tr ++ evs ++ [.raised (k + pre.length) e])) := by
    intro pre
    induction pre with
    | nil =>
      intro k _ h
      simp only [List.length_nil, Nat.add_zero] at h ⊢
      have hacc := (accepts_iff env k r t).2 hw
      have huid : (entry env k r.type r.handler r.sniff r.kw).uid = k := by
        unfold entry; cases r.handler <;> rfl
      simp [callHandlers, hacc, PyM.tryCatch, h, huid, log, hc]
    | cons q pre ih =>
      intro k hq h
      have hacc : (entry env k q.type q.handler q.sniff q.kw).accepts t = false := by
        rw [← Bool.not_eq_true]; exact fun hh => hq q List.mem_cons_self ((accepts_iff env k q t).1 hh)
      have hk : k + (q :: pre).length = (k + 1) + pre.length := by simp; omega
      rw [hk] at h ⊢
      have := ih (k + 1) (fun x hx => hq x (List.mem_cons_of_mem _ hx)) h
      simp only [List.cons_append, List.zipIdx_cons, List.map_cons, callHandlers, bind_run, hacc, pure_run, Bool.false_eq_true, if_false]
      exact this
  have := key pre 0 hpre (by simpa using h)
  simpa [entries] using this

/-- Every event of this kind comes right after an event for which `Q` holds. -/
def After (K : Ev Kw Obj Resp → Prop) (Q : Ev Kw Obj Resp → Ev Kw Obj Resp → Prop) (evs : List (Ev Kw Obj Resp)) : Prop :=
  ∀ pre x post, evs = pre ++ x :: post → K x → ∃ pre' y, pre = pre' ++ [y] ∧ Q y x

theorem After.append {K : Ev Kw Obj Resp → Prop} {Q : Ev Kw Obj Resp → Ev Kw Obj Resp → Prop} (a b : List (Ev Kw Obj Resp))
    (h1 : After K Q a) (h2 : After K Q b) : After K Q (a ++ b) := by
  intro pre x post he hk
  rcases List.append_eq_append_iff.1 he with ⟨c, h, h'⟩ | ⟨c, h, h'⟩
  · obtain ⟨pre', y, h3, h4⟩ := h2 c x post h' hk
    exact ⟨a ++ pre', y, by rw [h, h3, List.append_assoc], h4⟩
  · cases c with
    | nil =>
      obtain ⟨pre', y, h3, h4⟩ := h2 [] x post h'.symm hk
      simp at h3
    | cons z c =>
      simp only [List.cons_append, List.cons.injEq] at h'
      obtain ⟨rfl, _⟩ := h'
      exact h1 pre _ c h hk

theorem After.cons {K : Ev Kw Obj Resp → Prop} {Q : Ev Kw Obj Resp → Ev Kw Obj Resp → Prop} (x : Ev Kw Obj Resp) (l : List (Ev Kw Obj Resp))
    (hx : ¬ K x) (hl : ∀ y, l.head? = some y → K y → Q x y) (ht : After K Q l.tail) (h2 : ∀ y z, l.tail.head? = some z → l.head? = some y → K z → Q y z) :
    After K Q (x :: l) := by
  intro pre z post he hk
  cases pre with
  | nil =>
    simp only [List.nil_append, List.cons.injEq] at he
    exact absurd (he.1 ▸ hk) hx
  | cons w pre =>
    simp only [List.cons_append, List.cons.injEq] at he
    obtain ⟨rfl, he⟩ := he
    subst he
    cases pre with
    | nil => exact ⟨[], _, rfl, hl z rfl hk⟩
    | cons v pre =>
      cases pre with
      | nil => exact ⟨[x], v, rfl, h2 v z rfl rfl hk⟩
      | cons u pre =>
        obtain ⟨pre', y, h3, h4⟩ := ht (u :: pre) z post rfl hk
        exact ⟨x :: v :: pre', y, by simp [h3], h4⟩

/-- A call of a method of an object. -/
def isMethod : Ev Kw Obj Resp → Prop
  | .onRequest _ _ => True
  | .onMessage _ _ => True
  | _ => False

/-- The call of the method belongs to the making of the object. -/
def Follows (regs : List (Reg σ Kw Obj Resp)) (ts : List Xfer) (made called : Ev Kw Obj Resp) : Prop :=
  ∃ uid r t o, regs[uid]? = some r ∧ t ∈ ts ∧ r.Wants t ∧ made = .new uid (r.event t) r.kw ∧
    (r.Serves ∧ called = .onRequest uid o ∨ ¬ r.Serves ∧ called = .onMessage uid o)

theorem after_nil {K : Ev Kw Obj Resp → Prop} {Q : Ev Kw Obj Resp → Ev Kw Obj Resp → Prop} : After K Q [] :=
  fun pre x post he _ => by simp at he

/-- Methods are called only right after an object has been made, with `on_request` for registrations for requests and
`on_message` for all others. -/
theorem C133_methods (env : Env σ Resp) (regs : List (Reg σ Kw Obj Resp)) (ts : List Xfer) (a : σ) :
    After isMethod (Follows regs ts) (deliver env regs ts a).2 := by
  refine deliver_closed env _ after_nil After.append ?_ regs ts ?_ a
  · intro u e
    exact After.cons _ [] (fun h => h) (by simp) after_nil (by simp)
  · intro u r hr t ht s tr hw
    cases hh : r.handler with
    | cls c =>
      obtain ⟨evs, x, s', h1, h2⟩ := C133_class env u r c hh t s tr
      rw [hh] at h1
      refine ⟨evs, x, s', h1, ?_⟩
      have hq : ∀ o, r.Serves → Follows regs ts (.new u (r.event t) r.kw) (.onRequest u o) :=
        fun o hs => ⟨u, r, t, o, hr, ht, hw, rfl, .inl ⟨hs, rfl⟩⟩
      have hm : ∀ o, ¬ r.Serves → Follows regs ts (.new u (r.event t) r.kw) (.onMessage u o) :=
        fun o hs => ⟨u, r, t, o, hr, ht, hw, rfl, .inr ⟨hs, rfl⟩⟩
      generalize err x = ex at h2
      cases h2 <;> refine After.cons _ _ (fun h => h) ?_ ?_ ?_
      all_goals first
        | exact after_nil
        | (intro y hy; simp only [List.head?_cons, List.head?_nil, Option.some.injEq, reduceCtorEq] at hy)
        | skip
      all_goals first
        | (subst hy; intro _; first | exact hq _ ‹_› | exact hm _ ‹_›)
        | (intro y z hz; simp at hz; try (subst hz; intro _ hk; exact absurd hk (fun h => h)))
        | exact After.cons _ [] (fun h => h) (by simp) after_nil (by simp)
    | func f =>
      obtain ⟨rest, x, s', h1, h2⟩ := C133_function env u r f hh t s tr
      rw [hh] at h1
      refine ⟨_, x, s', h1, ?_⟩
      rcases h2 with ⟨rfl | ⟨_, _, a, _, rfl⟩, _⟩
      · exact After.cons _ [] (fun h => h) (by simp) after_nil (by simp)
      · exact After.cons _ _ (fun h => h) (by intro y hy hk; simp at hy; subst hy; exact absurd hk (fun h => h)) after_nil (by simp)

/-- Every response is for a request, goes to the node that has sent it, with its transfer ID and priority. -/
theorem C133_answers (env : Env σ Resp) (regs : List (Reg σ Kw Obj Resp)) (ts : List Xfer) (a : σ) (x : Resp) (d i p : Nat)
    (h : Ev.respond x d i p ∈ (deliver env regs ts a).2) :
    ∃ t ∈ ts, ∃ r ∈ regs, r.Serves ∧ r.Wants t ∧ t.header.request = true ∧ d = t.header.source ∧ i = t.tid ∧ p = t.header.prio := by
  revert h
  refine deliver_closed env (fun evs => Ev.respond x d i p ∈ evs → ∃ t ∈ ts, ∃ r ∈ regs, r.Serves ∧ r.Wants t ∧ t.header.request = true ∧
    d = t.header.source ∧ i = t.tid ∧ p = t.header.prio) (by simp) ?_ (by simp) regs ts ?_ a
  · intro a b h1 h2 h
    rcases List.mem_append.1 h with h | h
    · exact h1 h
    · exact h2 h
  · intro u r hr t ht s tr hw
    have hmem : r ∈ regs := List.mem_of_getElem? hr
    cases hh : r.handler with
    | cls c =>
      obtain ⟨evs, x', s', h1, h2⟩ := C133_class env u r c hh t s tr
      rw [hh] at h1
      refine ⟨evs, x', s', h1, fun hx => ?_⟩
      generalize err x' = ex at h2
      cases h2 <;> simp at hx
      all_goals
        obtain ⟨_, rfl, rfl, rfl⟩ := hx
        exact ⟨t, ht, r, hmem, ‹_›, hw, ‹_›, rfl, rfl, rfl⟩
    | func f =>
      obtain ⟨rest, x', s', h1, h2⟩ := C133_function env u r f hh t s tr
      rw [hh] at h1
      refine ⟨_, x', s', h1, fun hx => ?_⟩
      rcases h2 with ⟨rfl | ⟨hs, hq, a, _, rfl⟩, _⟩
      · simp at hx
      · simp at hx
        obtain ⟨_, rfl, rfl, rfl⟩ := hx
        exact ⟨t, ht, r, hmem, hs, hw, hq, rfl, rfl, rfl⟩

/-! ## The base classes -/

/-- A subclass of `Monitor` registered for messages, or for everything: `on_message` is called with every transfer that the
registration is for. -/
theorem C133_monitor (env : Env σ Resp) (uid : Nat) (r : Reg σ Kw Event Resp) (f : Event → PyM σ Unit) (h : r.handler = .cls (monitor f))
    (ht : r.type = none ∨ ∃ n, r.type = some (n, false)) (t : Xfer) (s : σ) (tr : List (Ev Kw Event Resp)) :
    (entry env uid r.type r.handler r.sniff r.kw).call t (s, tr) =
      ((f ⟨.message, t⟩ s).1, ((f ⟨.message, t⟩ s).2, tr ++ [.new uid ⟨.message, t⟩ r.kw, .onMessage uid ⟨.message, t⟩])) := by
  have he : r.event t = ⟨.message, t⟩ := by
    unfold Reg.event Reg.attr
    rcases ht with ht | ⟨n, ht⟩ <;> rw [ht]
  have hns : ¬ r.Serves := by
    rintro ⟨⟨m, hm⟩, _⟩
    rcases ht with ht | ⟨n, ht⟩ <;> rw [hm] at ht <;> cases ht
  obtain ⟨evs, x, s', h1, h2⟩ := C133_class env uid r _ h t s tr
  rw [h1]
  have hinit : ∀ s, (monitor f : Cls σ Kw Event Resp).init (r.event t) r.kw s = (.ok ⟨.message, t⟩, s) := by
    intro s; rw [he]; rfl
  have hx : ∀ y, err x = some y → x = .error y := by intro y; cases x <;> simp [err]
  have hx' : err x = none → x = .ok () := by cases x <;> simp [err]
  generalize err x = ex at h2 hx hx'
  cases h2 with
  | ctor hi => rw [hinit] at hi; cases hi
  | request hs | attr hs | notRequest hs | noAnswer hs | answered hs | notSent hs => exact absurd hs hns
  | message _ hi hm =>
    rw [hinit] at hi; cases hi
    have hm' : f ⟨.message, t⟩ s = _ := hm
    rw [hm', hx' rfl, he]
  | messageRaised _ hi hm =>
    rw [hinit] at hi; cases hi
    have hm' : f ⟨.message, t⟩ s = _ := hm
    rw [hm', hx _ rfl, he]

/-- A subclass of `Monitor` registered for a service, with or without `sniff_response`, never works: the event has no
`message`, and `on_message` is not called. -/
theorem C133_monitor_service (env : Env σ Resp) (uid : Nat) (r : Reg σ Kw Event Resp) (f : Event → PyM σ Unit) (h : r.handler = .cls (monitor f))
    (n : Nat) (ht : r.type = some (n, true)) (t : Xfer) (s : σ) (tr : List (Ev Kw Event Resp)) :
    (entry env uid r.type r.handler r.sniff r.kw).call t (s, tr) = (.error .attributeError, (s, tr ++ [.new uid (r.event t) r.kw])) := by
  have hinit : ∀ s, (monitor f : Cls σ Kw Event Resp).init (r.event t) r.kw s = (.error .attributeError, s) := by
    intro s
    unfold Reg.event Reg.attr
    rw [ht]
    cases r.sniff <;> rfl
  obtain ⟨evs, x, s', h1, h2⟩ := C133_class env uid r _ h t s tr
  rw [h1]
  have hx : ∀ y, err x = some y → x = .error y := by intro y; cases x <;> simp [err]
  generalize err x = ex at h2 hx
  cases h2 with
  | ctor hi => rw [hinit] at hi; cases hi; rw [hx _ rfl]
  | request _ hi | attr _ hi | notRequest _ hi | noAnswer _ hi | answered _ hi | notSent _ hi | message _ hi | messageRaised _ hi =>
    rw [hinit] at hi; cases hi

/-- A subclass of `Service` registered for anything but the requests of a service never works. -/
theorem C133_service_other {τ : Type} (env : Env (Heap τ Resp) Resp) (uid : Nat) (r : Reg (Heap τ Resp) Kw (Event × Nat) Resp) (default : Nat → Resp)
    (f : Event × Nat → PyM (Heap τ Resp) Unit) (h : r.handler = .cls (service default f)) (ht : ¬ r.Serves) (t : Xfer) (s : Heap τ Resp)
    (tr : List (Ev Kw (Event × Nat) Resp)) :
    (entry env uid r.type r.handler r.sniff r.kw).call t (s, tr) = (.error .attributeError, (s, tr ++ [.new uid (r.event t) r.kw])) := by
  have hne : r.attr ≠ .request := by
    intro hh
    apply ht
    unfold Reg.attr at hh
    rcases r with ⟨_ | ⟨n, _ | _⟩, h, _ | _, kw⟩ <;> simp [Reg.Serves] at hh ⊢
  have hinit : ∀ s, (service default f : Cls (Heap τ Resp) Kw (Event × Nat) Resp).init (r.event t) r.kw s = (.error .attributeError, s) := by
    intro s
    simp only [service, Reg.event, if_neg hne, raise_run]
  obtain ⟨evs, x, s', h1, h2⟩ := C133_class env uid r _ h t s tr
  rw [h1]
  have hx : ∀ y, err x = some y → x = .error y := by intro y; cases x <;> simp [err]
  generalize err x = ex at h2 hx
  cases h2 with
  | ctor hi => rw [hinit] at hi; cases hi; rw [hx _ rfl]
  | request _ hi | attr _ hi | notRequest _ hi | noAnswer _ hi | answered _ hi | notSent _ hi | message _ hi | messageRaised _ hi =>
    rw [hinit] at hi; cases hi

/-- A subclass of `Service` registered for requests answers every request with what `on_request` leaves in `self.response`: if it
does not touch that, with `Response()` of the type. -/
theorem C133_service {τ : Type} (env : Env (Heap τ Resp) Resp) (uid : Nat) (r : Reg (Heap τ Resp) Kw (Event × Nat) Resp) (default : Nat → Resp)
    (f : Event × Nat → PyM (Heap τ Resp) Unit) (h : r.handler = .cls (service default f)) (ht : r.Serves) (t : Xfer) (hq : t.header.request = true)
    (s : Heap τ Resp) (tr : List (Ev Kw (Event × Nat) Resp)) (s' : Heap τ Resp) (answer : Resp)
    (hf : f (⟨.request, t⟩, s.2.1) (s.1, s.2.1 + 1, fun i => if i = s.2.1 then some (default t.header.dtid) else s.2.2 i) = (.ok (), s'))
    (ha : s'.2.2 s.2.1 = some answer) :
    ((entry env uid r.type r.handler r.sniff r.kw).call t (s, tr)).2.2 =
      tr ++ [.new uid ⟨.request, t⟩ r.kw, .onRequest uid (⟨.request, t⟩, s.2.1), .respond answer t.header.source t.tid t.header.prio] := by
  have he : r.event t = ⟨.request, t⟩ := by
    obtain ⟨⟨n, hn⟩, hs⟩ := ht
    unfold Reg.event Reg.attr
    rw [hn, hs]
  have hinit : (service default f : Cls (Heap τ Resp) Kw (Event × Nat) Resp).init (r.event t) r.kw s =
      (.ok (⟨.request, t⟩, s.2.1), (s.1, s.2.1 + 1, fun i => if i = s.2.1 then some (default t.header.dtid) else s.2.2 i)) := by
    rw [he]; rfl
  have hf' : (service default f : Cls (Heap τ Resp) Kw (Event × Nat) Resp).onRequest (⟨.request, t⟩, s.2.1) = f (⟨.request, t⟩, s.2.1) := rfl
  have hr : ∀ s'', (service default f : Cls (Heap τ Resp) Kw (Event × Nat) Resp).response (⟨.request, t⟩, s.2.1) s'' = (.ok (s''.2.2 s.2.1), s'') :=
    fun _ => rfl
  obtain ⟨evs, x, s'', h1, h2⟩ := C133_class env uid r _ h t s tr
  rw [h1]
  generalize err x = ex at h2
  cases h2 with
  | ctor hi => rw [hinit] at hi; cases hi
  | message hs | messageRaised hs => exact absurd ht hs
  | request _ hi hm => rw [hinit] at hi; cases hi; rw [hf', hf] at hm; cases hm
  | attr _ hi hm hx => rw [hinit] at hi; cases hi; rw [hf', hf] at hm; cases hm; rw [hr] at hx; cases hx
  | notRequest _ _ _ _ hn => rw [hq] at hn; cases hn
  | noAnswer _ hi hm hx => rw [hinit] at hi; cases hi; rw [hf', hf] at hm; cases hm; rw [hr, ha] at hx; cases hx
  | answered _ hi hm hx | notSent _ hi hm hx =>
    rw [hinit] at hi; cases hi; rw [hf', hf] at hm; cases hm; rw [hr, ha] at hx; cases hx; rw [he]

/-! ## `on_request` and responses -/

/-- What C133 claims of `on_request`: it is called for requests only. -/
def C133_statement : Prop :=
  ∀ (σ Kw Obj Resp : Type) (env : Env σ Resp) (regs : List (Reg σ Kw Obj Resp)) (ts : List Xfer) (a : σ) (pre post : List (Ev Kw Obj Resp))
    (uid uid' : Nat) (e : Event) (kw : Kw) (o : Obj),
    (deliver env regs ts a).2 = pre ++ .new uid e kw :: .onRequest uid' o :: post → e.transfer.header.request = true

/-- True if the service transfers that reach the dispatcher are requests, as they are unless some handler sniffs responses
(node.py:334-353). -/
theorem C133_partial (env : Env σ Resp) (regs : List (Reg σ Kw Obj Resp)) (ts : List Xfer) (a : σ)
    (hts : ∀ t ∈ ts, t.header.service = true → t.header.request = true) (pre post : List (Ev Kw Obj Resp))
    (uid uid' : Nat) (e : Event) (kw : Kw) (o : Obj)
    (h : (deliver env regs ts a).2 = pre ++ .new uid e kw :: .onRequest uid' o :: post) : e.transfer.header.request = true := by
  obtain ⟨pre', y, h1, u, r, t, o', hr, ht, hw, hy, hc⟩ := C133_methods env regs ts a (pre ++ [.new uid e kw]) (.onRequest uid' o) post (by simp [h]) trivial
  obtain ⟨_, h1⟩ := List.append_inj' h1 rfl
  simp only [List.cons.injEq, and_true] at h1
  rw [← h1] at hy
  cases hy
  rcases hc with ⟨hs, _⟩ | ⟨_, hc⟩
  · obtain ⟨⟨n, hn⟩, _⟩ := hs
    refine hts t ht ?_
    rcases hw with hw | hw
    · rw [hn] at hw; cases hw
    · rw [hn, Option.some.injEq, Prod.mk.injEq] at hw; exact hw.2.symm
  · cases hc

/-- A subclass of `Service` for service 1. -/
def sampleReg : Reg (Heap Unit Nat) Unit (Event × Nat) Nat :=
  { type := some (1, true), handler := .cls (service (fun _ => 7) (fun _ => PyM.pure ())), sniff := false, kw := () }

/-- A node without restrictions. -/
def sampleEnv : Env (Heap Unit Nat) Nat := { respond := fun _ _ _ _ => PyM.pure (), catchExc := true }

/-- A request and a response of service 1. -/
def sampleXfer (request : Bool) : Xfer :=
  { header := { service := true, request, dtid := 1, source := 42, dest := some 10, prio := 16 }, tid := 5, payload := [] }

theorem sample_response : (deliver sampleEnv [sampleReg] [sampleXfer false] ((), 0, fun _ => none)).2 =
    [.new 0 ⟨.request, sampleXfer false⟩ (), .onRequest 0 (⟨.request, sampleXfer false⟩, 0)] := by
  decide +kernel

/-- A response that some other handler sniffs is given to `on_request`, as `self.request`. -/
theorem C133_counterexample : ¬ C133_statement := by
  intro h
  have := h _ _ _ _ sampleEnv [sampleReg] [sampleXfer false] ((), 0, fun _ => none) [] [] 0 0 _ _ _ sample_response
  cases this

/-- A request is answered with the default response; a function registered for the same service is called with its keyword
arguments. -/
example : (deliver sampleEnv [sampleReg, { type := some (1, true), handler := .func (fun _ _ => PyM.pure (some 8)), sniff := false, kw := () }]
    [sampleXfer true] ((), 0, fun _ => none)).2 =
    [.new 0 ⟨.request, sampleXfer true⟩ (), .onRequest 0 (⟨.request, sampleXfer true⟩, 0), .respond 7 42 5 16,
     .called 1 ⟨.request, sampleXfer true⟩ (), .respond 8 42 5 16] := by
  decide +kernel

/-- A `Monitor` for messages and one for a service. -/
example : (deliver ({ respond := fun _ _ _ _ => PyM.pure (), catchExc := true } : Env Nat Nat)
    [{ type := none, handler := .cls (monitor (fun _ s => (.ok (), s + 1))), sniff := false, kw := () },
     { type := some (1, true), handler := .cls (monitor (fun _ s => (.ok (), s + 1))), sniff := true, kw := () }]
    [sampleXfer false] 0) =
    (1, [.new 0 ⟨.message, sampleXfer false⟩ (), .onMessage 0 ⟨.message, sampleXfer false⟩, .new 1 ⟨.response, sampleXfer false⟩ (), .raised 1 .attributeError]) := by
  decide +kernel

example : sampleReg.Serves ∧ sampleReg.Wants (sampleXfer true) ∧ (sampleXfer true).header.request = true := ⟨⟨⟨1, rfl⟩, rfl⟩, .inr rfl, rfl⟩

end HandlerClass
end Dronecan
