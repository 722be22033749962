import Verif.Model.Reentrant

/-!
# C137: `spin` called from callbacks
-/

namespace Dronecan
namespace Reentrant

variable {φ σ τ ρ : Type} [DecidableEq ρ]

/-! ## What traces tell -/

def frames (l : List (Ev φ τ ρ)) : List φ := l.filterMap fun
  | .received f => some f
  | _ => none

def transfers (l : List (Ev φ τ ρ)) : List τ := l.filterMap fun
  | .transfer t => some t
  | _ => none

def calls (n : Nat) (l : List (Ev φ τ ρ)) : List τ := l.filterMap fun
  | .called m t => if m = n then some t else none
  | _ => none

def asked (l : List (Ev φ τ ρ)) : List ρ := l.filterMap fun
  | .asked r => some r
  | _ => none

/-- The responses with which the callback of `r` has been called. -/
def answersTo (r : ρ) (l : List (Ev φ τ ρ)) : List τ := l.filterMap fun
  | .answered q t => if q = r then some t else none
  | _ => none

/-- Frame after frame, without any nesting. -/
def flat (env : Env φ σ τ ρ) : σ → List φ → σ × List τ
  | st, [] => (st, [])
  | st, f :: fs => ((flat env (env.reassemble st f).1 fs).1, (env.reassemble st f).2.toList ++ (flat env (env.reassemble st f).1 fs).2)

/-! ## Relations between the states before and after -/

/-- A relation that every script establishes between the states before and after it. -/
structure Closed (env : Env φ σ τ ρ) (R : State φ σ τ ρ → State φ σ τ ρ → Prop) : Prop where
  refl : ∀ s, R s s
  trans : ∀ a b c, R a b → R b c → R a c
  ask : ∀ r s, R s (ask r s)
  expire : ∀ r s, r ∈ s.timers → R s (expire r s)
  receive : ∀ f s (cb : Nat → State φ σ τ ρ → State φ σ τ ρ × Bool) (answer : State φ σ τ ρ → State φ σ τ ρ × Bool),
    (∀ n s, R s (cb n s).1) → (∀ s, R s (answer s).1) → R s (receive env f cb answer s).1

theorem closed_exec {env : Env φ σ τ ρ} {R : State φ σ τ ρ → State φ σ τ ρ → Prop} (h : Closed env R) (x : Script φ ρ) :
    ∀ s, R s (exec env x s).1 := by
  induction x with
  | done => exact h.refl
  | request r next ih => intro s; exact h.trans _ _ _ (h.ask r s) (ih _)
  | frame f inner answer next ih1 ih2 ih3 =>
    intro s
    have h1 := h.receive f s (fun n => exec env (inner n)) (exec env answer) ih1 ih2
    simp only [exec]
    generalize receive env f (fun n => exec env (inner n)) (exec env answer) s = q at *
    obtain ⟨q, b⟩ := q
    cases b with
    | true => exact h1
    | false => exact h.trans _ _ _ h1 (ih3 _)
  | timeout r inner next ih1 ih2 =>
    intro s
    simp only [exec]
    split
    · rename_i hr
      have h1 := h.trans _ _ _ (h.expire r s hr) (ih1 _)
      generalize exec env inner (expire r s) = q at *
      obtain ⟨q, b⟩ := q
      cases b with
      | true => exact h1
      | false => exact h.trans _ _ _ h1 (ih2 _)
    · exact ih2 s

theorem closed_run {env : Env φ σ τ ρ} {R : State φ σ τ ρ → State φ σ τ ρ → Prop} (h : Closed env R) (xs : List (Script φ ρ)) :
    ∀ s, R s (run env s xs) := by
  induction xs with
  | nil => exact h.refl
  | cons x xs ih => intro s; exact h.trans _ _ _ (closed_exec h x s) (ih _)

/-- Handlers called one after the other. -/
theorem closed_callAll {R : State φ σ τ ρ → State φ σ τ ρ → Prop} (hr : ∀ s, R s s) (ht : ∀ a b c, R a b → R b c → R a c)
    (cb : Nat → State φ σ τ ρ → State φ σ τ ρ × Bool) (t : τ) (hcb : ∀ n s, R s (cb n (emit (.called n t) s)).1) (hs : List (τ → Bool)) :
    ∀ n s, R s (callAll cb t n hs s) := by
  induction hs with
  | nil => intro n s; exact hr s
  | cons h hs ih =>
    intro n s
    simp only [callAll]
    refine ht _ _ _ ?_ (ih _ _)
    split
    · exact hcb n s
    · exact hr s

/-! ## Frames and transfers -/

theorem flat_append (env : Env φ σ τ ρ) (a b : List φ) : ∀ st, flat env st (a ++ b) =
    ((flat env (flat env st a).1 b).1, (flat env st a).2 ++ (flat env (flat env st a).1 b).2) := by
  induction a with
  | nil => intro st; simp [flat]
  | cons f a ih => intro st; simp [flat, ih, List.append_assoc]

/-- The new events, if they are those of flat processing. -/
def AsFlat (env : Env φ σ τ ρ) (s s' : State φ σ τ ρ) : Prop :=
  ∃ ev, s'.trace = s.trace ++ ev ∧ flat env s.reassembly (frames ev) = (s'.reassembly, transfers ev)

theorem AsFlat.quiet {env : Env φ σ τ ρ} {s s' : State φ σ τ ρ} (e : Ev φ τ ρ) (h : s'.reassembly = s.reassembly) (ht : s'.trace = s.trace ++ [e])
    (h1 : frames [e] = []) (h2 : transfers [e] = []) : AsFlat env s s' := ⟨[e], ht, by rw [h1, h2, h]; rfl⟩

theorem AsFlat.refl {env : Env φ σ τ ρ} (s : State φ σ τ ρ) : AsFlat env s s := ⟨[], by simp, rfl⟩

theorem AsFlat.trans {env : Env φ σ τ ρ} {a b c : State φ σ τ ρ} (h : AsFlat env a b) (g : AsFlat env b c) : AsFlat env a c := by
  obtain ⟨e1, h1, h2⟩ := h
  obtain ⟨e2, g1, g2⟩ := g
  refine ⟨e1 ++ e2, by rw [g1, h1, List.append_assoc], ?_⟩
  simp only [frames, transfers, List.filterMap_append] at *
  rw [flat_append, h2]
  simp only [g2]

theorem AsFlat.of_eq {env : Env φ σ τ ρ} {a b c : State φ σ τ ρ} (h : AsFlat env a b) (h1 : c.reassembly = b.reassembly) (h2 : c.trace = b.trace) :
    AsFlat env a c := by
  obtain ⟨e, g1, g2⟩ := h
  exact ⟨e, by rw [h2, g1], by rw [h1, g2]⟩

theorem closed_asFlat (env : Env φ σ τ ρ) : Closed env (AsFlat env) where
  refl := AsFlat.refl
  trans := fun _ _ _ => AsFlat.trans
  ask := fun r s => .quiet (.asked r) rfl rfl rfl rfl
  expire := fun r s _ => .quiet (.expired r) rfl rfl rfl rfl
  receive := by
    intro f s cb answer hcb ha
    unfold receive
    simp only
    generalize hq : env.reassemble (emit (.received f) s).reassembly f = q
    obtain ⟨st, o⟩ := q
    change env.reassemble s.reassembly f = (st, o) at hq
    cases o with
    | none => exact ⟨[.received f], rfl, by simp [frames, transfers, flat, hq]⟩
    | some t =>
      have h0 : AsFlat env s (emit (.transfer t) { emit (.received f) s with reassembly := st }) :=
        ⟨[.received f, .transfer t], by simp [emit], by simp [frames, transfers, flat, hq, emit]⟩
      simp only
      split
      · refine h0.trans ?_
        generalize emit (.transfer t) { emit (.received f) s with reassembly := st } = u
        unfold respond
        split
        · exact .refl _
        · rename_i r _
          have h1 : AsFlat env u (emit (.answered r t) { u with timers := u.timers.erase r }) := .quiet (.answered r t) rfl rfl rfl rfl
          have h2 := h1.trans (ha _)
          generalize answer (emit (.answered r t) { u with timers := u.timers.erase r }) = q at *
          obtain ⟨q, b⟩ := q
          cases b with
          | true => exact h2
          | false =>
            have h3 : AsFlat env u (emit (.returned r) q) := h2.trans (.quiet (.returned r) rfl rfl rfl rfl)
            simp only
            split
            · exact h3.of_eq rfl rfl
            · exact h3.trans (.quiet .keyError rfl rfl rfl rfl)
      · refine h0.trans (closed_callAll AsFlat.refl (fun _ _ _ => AsFlat.trans) cb t (fun n s => ?_) _ _ _)
        have h1 : AsFlat env s (emit (.called n t) s) := .quiet (.called n t) rfl rfl rfl rfl
        exact h1.trans (hcb n _)

/-- However calls of `spin` are nested, the transfers that are dispatched are those that result from the received frames one after the other, in that order. -/
theorem C137_frames (env : Env φ σ τ ρ) (st : σ) (xs : List (Script φ ρ)) :
    let s := run env { reassembly := st } xs
    transfers s.trace = (flat env st (frames s.trace)).2 ∧ s.reassembly = (flat env st (frames s.trace)).1 := by
  obtain ⟨ev, h1, h2⟩ := closed_run (closed_asFlat env) xs { reassembly := st }
  simp only [List.nil_append] at h1
  simp only [h1]
  rw [show flat env st (frames ev) = _ from h2]
  exact ⟨rfl, rfl⟩

/-! ## Handlers -/

/-- Handler `n` is to be called for this transfer. -/
def wanted (env : Env φ σ τ ρ) (n : Nat) (t : τ) : Bool := !env.toUs t && (env.handlers[n]?).any (· t)

theorem calls_append (n : Nat) (a b : List (Ev φ τ ρ)) : calls n (a ++ b) = calls n a ++ calls n b := List.filterMap_append

theorem transfers_append (a b : List (Ev φ τ ρ)) : transfers (a ++ b) = transfers a ++ transfers b := List.filterMap_append

theorem asked_append (a b : List (Ev φ τ ρ)) : asked (a ++ b) = asked a ++ asked b := List.filterMap_append

theorem answersTo_append (r : ρ) (a b : List (Ev φ τ ρ)) : answersTo r (a ++ b) = answersTo r a ++ answersTo r b := List.filterMap_append

/-- The handler is called once for each of the new transfers that it is to be called for. -/
def Served (env : Env φ σ τ ρ) (n : Nat) (s s' : State φ σ τ ρ) : Prop :=
  ∃ ev, s'.trace = s.trace ++ ev ∧ (calls n ev).Perm ((transfers ev).filter (wanted env n))

theorem Served.refl {env : Env φ σ τ ρ} {n : Nat} (s : State φ σ τ ρ) : Served env n s s := ⟨[], by simp, .nil⟩

theorem Served.trans {env : Env φ σ τ ρ} {n : Nat} {a b c : State φ σ τ ρ} (h : Served env n a b) (g : Served env n b c) : Served env n a c := by
  obtain ⟨e1, h1, h2⟩ := h
  obtain ⟨e2, g1, g2⟩ := g
  refine ⟨e1 ++ e2, by rw [g1, h1, List.append_assoc], ?_⟩
  rw [calls_append, transfers_append, List.filter_append]
  exact h2.append g2

theorem Served.quiet {env : Env φ σ τ ρ} {n : Nat} {s s' : State φ σ τ ρ} (e : Ev φ τ ρ) (ht : s'.trace = s.trace ++ [e])
    (h1 : calls n [e] = []) (h2 : transfers [e] = []) : Served env n s s' := ⟨[e], ht, by rw [h1, h2]; exact .nil⟩

theorem Served.of_eq {env : Env φ σ τ ρ} {n : Nat} {a b c : State φ σ τ ρ} (h : Served env n a b) (h2 : c.trace = b.trace) : Served env n a c := by
  obtain ⟨e, g1, g2⟩ := h
  exact ⟨e, by rw [h2, g1], g2⟩

theorem served_callAll (env : Env φ σ τ ρ) (n : Nat) (cb : Nat → State φ σ τ ρ → State φ σ τ ρ × Bool) (t : τ) (hcb : ∀ m s, Served env n s (cb m s).1)
    (hs : List (τ → Bool)) : ∀ m s, ∃ ev, (callAll cb t m hs s).trace = s.trace ++ ev ∧
      (calls n ev).Perm ((if m ≤ n ∧ (hs[n - m]?).any (· t) = true then [t] else []) ++ (transfers ev).filter (wanted env n)) := by
  induction hs with
  | nil => intro m s; exact ⟨[], by simp [callAll], by simp [calls, transfers]⟩
  | cons h hs ih =>
    intro m s
    simp only [callAll]
    obtain ⟨e2, h1, h2⟩ := ih (m + 1) (if h t then (cb m (emit (.called m t) s)).1 else s)
    have hidx : m ≠ n → ((if m ≤ n ∧ ((h :: hs)[n - m]?).any (· t) = true then [t] else []) : List τ) =
        if m + 1 ≤ n ∧ (hs[n - (m + 1)]?).any (· t) = true then [t] else [] := by
      intro hne
      by_cases hlt : m ≤ n
      · have e1 : n - m = n - (m + 1) + 1 := by omega
        rw [e1, List.getElem?_cons_succ]
        simp only [hlt, true_and, show m + 1 ≤ n by omega]
      · rw [if_neg (by simp [hlt]), if_neg (by omega)]
    by_cases ht : h t = true
    · rw [if_pos ht] at h1 ⊢
      obtain ⟨e1, g1, g2⟩ := hcb m (emit (.called m t) s)
      refine ⟨.called m t :: (e1 ++ e2), by rw [h1, g1]; simp [emit], ?_⟩
      rw [show (Ev.called m t :: (e1 ++ e2) : List (Ev φ τ ρ)) = [.called m t] ++ (e1 ++ e2) from rfl, calls_append, calls_append, transfers_append,
        transfers_append]
      by_cases hmn : m = n
      · subst hmn
        rw [if_neg (by omega), List.nil_append] at h2
        rw [if_pos ⟨Nat.le_refl _, by simp [ht]⟩]
        have : calls m [(.called m t : Ev φ τ ρ)] = [t] := by simp [calls]
        rw [this, show transfers [(.called m t : Ev φ τ ρ)] = [] from rfl, List.nil_append, List.filter_append]
        exact (g2.append h2).append_left [t]
      · have : calls n [(.called m t : Ev φ τ ρ)] = [] := by simp [calls, hmn]
        rw [this, show transfers [(.called m t : Ev φ τ ρ)] = [] from rfl, List.nil_append, List.nil_append, List.filter_append, hidx hmn]
        exact (g2.append h2).trans (List.perm_append_comm_assoc ..)
    · rw [if_neg ht] at h1 ⊢
      refine ⟨e2, h1, ?_⟩
      by_cases hmn : m = n
      · subst hmn
        rw [if_neg (by omega), List.nil_append] at h2
        rw [if_neg (by simp [ht])]
        exact h2
      · rw [hidx hmn]
        exact h2

theorem closed_served (env : Env φ σ τ ρ) (n : Nat) : Closed env (Served env n) where
  refl := Served.refl
  trans := fun _ _ _ => Served.trans
  ask := fun r s => .quiet (.asked r) rfl rfl rfl
  expire := fun r s _ => .quiet (.expired r) rfl rfl rfl
  receive := by
    intro f s cb answer hcb ha
    unfold receive
    simp only
    generalize env.reassemble (emit (.received f) s).reassembly f = q
    obtain ⟨st, o⟩ := q
    cases o with
    | none => exact .quiet (.received f) rfl rfl rfl
    | some t =>
      simp only
      split
      · rename_i hu
        have h0 : Served env n s (emit (.transfer t) { emit (.received f) s with reassembly := st }) :=
          ⟨[.received f, .transfer t], by simp [emit], by simp [calls, transfers, wanted, hu]⟩
        refine h0.trans ?_
        generalize emit (.transfer t) { emit (.received f) s with reassembly := st } = u
        unfold respond
        split
        · exact .refl _
        · rename_i r _
          have h1 : Served env n u (emit (.answered r t) { u with timers := u.timers.erase r }) := .quiet (.answered r t) rfl rfl rfl
          have h2 := h1.trans (ha _)
          generalize answer (emit (.answered r t) { u with timers := u.timers.erase r }) = q at *
          obtain ⟨q, b⟩ := q
          cases b with
          | true => exact h2
          | false =>
            have h3 : Served env n u (emit (.returned r) q) := h2.trans (.quiet (.returned r) rfl rfl rfl)
            simp only
            split
            · exact h3.of_eq rfl
            · exact h3.trans (.quiet .keyError rfl rfl rfl)
      · rename_i hu
        obtain ⟨e, h1, h2⟩ := served_callAll env n cb t hcb env.handlers 0 (emit (.transfer t) { emit (.received f) s with reassembly := st })
        refine ⟨.received f :: .transfer t :: e, by rw [h1]; simp [emit], ?_⟩
        have e1 : calls n (.received f :: .transfer t :: e : List (Ev φ τ ρ)) = calls n e := rfl
        have e2 : transfers (.received f :: .transfer t :: e : List (Ev φ τ ρ)) = t :: transfers e := rfl
        rw [e1, e2]
        refine h2.trans (List.Perm.of_eq ?_)
        simp only [Nat.zero_le, true_and, Nat.sub_zero, List.filter_cons, wanted, hu, Bool.not_false, Bool.true_and, Bool.not_eq_true] at *
        split <;> simp_all

/-- However calls of `spin` are nested, each handler has been called exactly once for each transfer that it is for. -/
theorem C137_handlers (env : Env φ σ τ ρ) (st : σ) (xs : List (Script φ ρ)) (n : Nat) :
    let s := run env { reassembly := st } xs
    (calls n s.trace).Perm ((transfers s.trace).filter (wanted env n)) := by
  obtain ⟨ev, h1, h2⟩ := closed_run (closed_served env n) xs { reassembly := st }
  simp only [List.nil_append] at h1
  simp only [h1]
  exact h2

/-! ## Order -/

/-- No frames are received. -/
def Frameless : Script φ ρ → Prop
  | .done => True
  | .request _ next => Frameless next
  | .timeout _ inner next => Frameless inner ∧ Frameless next
  | .frame .. => False

/-- The handlers before `n` do not call `spin`, or nothing arrives meanwhile. -/
def Calm (n : Nat) : Script φ ρ → Prop
  | .done => True
  | .request _ next => Calm n next
  | .timeout _ inner next => Calm n inner ∧ Calm n next
  | .frame _ inner answer next => (∀ i, i < n → Frameless (inner i)) ∧ (∀ i, Calm n (inner i)) ∧ Calm n answer ∧ Calm n next

/-- The handler is called for the new transfers in their order. -/
def InOrder (env : Env φ σ τ ρ) (n : Nat) (s s' : State φ σ τ ρ) : Prop :=
  ∃ ev, s'.trace = s.trace ++ ev ∧ calls n ev = (transfers ev).filter (wanted env n)

theorem InOrder.refl {env : Env φ σ τ ρ} {n : Nat} (s : State φ σ τ ρ) : InOrder env n s s := ⟨[], by simp, rfl⟩

theorem InOrder.trans {env : Env φ σ τ ρ} {n : Nat} {a b c : State φ σ τ ρ} (h : InOrder env n a b) (g : InOrder env n b c) : InOrder env n a c := by
  obtain ⟨e1, h1, h2⟩ := h
  obtain ⟨e2, g1, g2⟩ := g
  refine ⟨e1 ++ e2, by rw [g1, h1, List.append_assoc], ?_⟩
  rw [calls_append, transfers_append, List.filter_append, h2, g2]

theorem InOrder.quiet {env : Env φ σ τ ρ} {n : Nat} {s s' : State φ σ τ ρ} (e : Ev φ τ ρ) (ht : s'.trace = s.trace ++ [e])
    (h1 : calls n [e] = []) (h2 : transfers [e] = []) : InOrder env n s s' := ⟨[e], ht, by rw [h1, h2]; rfl⟩

theorem InOrder.of_eq {env : Env φ σ τ ρ} {n : Nat} {a b c : State φ σ τ ρ} (h : InOrder env n a b) (h2 : c.trace = b.trace) : InOrder env n a c := by
  obtain ⟨e, g1, g2⟩ := h
  exact ⟨e, by rw [h2, g1], g2⟩

/-- Neither a transfer nor a call of a handler. -/
def Still (s s' : State φ σ τ ρ) : Prop := ∃ ev, s'.trace = s.trace ++ ev ∧ transfers ev = [] ∧ ∀ n, calls n ev = []

theorem Still.trans {a b c : State φ σ τ ρ} (h : Still a b) (g : Still b c) : Still a c := by
  obtain ⟨e1, h1, h2, h3⟩ := h
  obtain ⟨e2, g1, g2, g3⟩ := g
  exact ⟨e1 ++ e2, by rw [g1, h1, List.append_assoc], by rw [transfers_append, h2, g2]; rfl, fun n => by rw [calls_append, h3, g3]; rfl⟩

theorem still_exec (env : Env φ σ τ ρ) (x : Script φ ρ) (hx : Frameless x) : ∀ s, Still s (exec env x s).1 := by
  induction x with
  | done => intro s; exact ⟨[], by simp [exec], rfl, fun _ => rfl⟩
  | request r next ih =>
    intro s
    have h1 : Still s (ask r s) := ⟨[.asked r], rfl, rfl, fun _ => rfl⟩
    exact h1.trans (ih hx _)
  | frame f inner answer next => exact hx.elim
  | timeout r inner next ih1 ih2 =>
    intro s
    simp only [exec]
    split
    · have h0 : Still s (expire r s) := ⟨[.expired r], rfl, rfl, fun _ => rfl⟩
      have h1 := h0.trans (ih1 hx.1 _)
      generalize exec env inner (expire r s) = q at *
      obtain ⟨q, b⟩ := q
      cases b with
      | true => exact h1
      | false => exact h1.trans (ih2 hx.2 _)
    · exact ih2 hx.2 s

theorem order_callAll (env : Env φ σ τ ρ) (n : Nat) (cb : Nat → State φ σ τ ρ → State φ σ τ ρ × Bool) (t : τ)
    (hcb : ∀ m s, InOrder env n s (cb m s).1) (hst : ∀ m, m < n → ∀ s, Still s (cb m s).1)
    (hs : List (τ → Bool)) : ∀ m s, ∃ ev, (callAll cb t m hs s).trace = s.trace ++ ev ∧
      calls n ev = (if m ≤ n ∧ (hs[n - m]?).any (· t) = true then [t] else []) ++ (transfers ev).filter (wanted env n) := by
  induction hs with
  | nil => intro m s; exact ⟨[], by simp [callAll], by simp [calls, transfers]⟩
  | cons h hs ih =>
    intro m s
    simp only [callAll]
    obtain ⟨e2, h1, h2⟩ := ih (m + 1) (if h t then (cb m (emit (.called m t) s)).1 else s)
    have hidx : m ≠ n → ((if m ≤ n ∧ ((h :: hs)[n - m]?).any (· t) = true then [t] else []) : List τ) =
        if m + 1 ≤ n ∧ (hs[n - (m + 1)]?).any (· t) = true then [t] else [] := by
      intro hne
      by_cases hlt : m ≤ n
      · have e1 : n - m = n - (m + 1) + 1 := by omega
        rw [e1, List.getElem?_cons_succ]
        simp only [hlt, true_and, show m + 1 ≤ n by omega]
      · rw [if_neg (by simp [hlt]), if_neg (by omega)]
    by_cases ht : h t = true
    · rw [if_pos ht] at h1 ⊢
      by_cases hmn : m < n
      · obtain ⟨e1, g1, g2, g3⟩ := hst m hmn (emit (.called m t) s)
        refine ⟨.called m t :: (e1 ++ e2), by rw [h1, g1]; simp [emit], ?_⟩
        rw [show (Ev.called m t :: (e1 ++ e2) : List (Ev φ τ ρ)) = [.called m t] ++ (e1 ++ e2) from rfl, calls_append, calls_append, transfers_append,
          transfers_append, g2, g3, hidx (by omega), h2]
        have : calls n [(.called m t : Ev φ τ ρ)] = [] := by simp [calls, show m ≠ n by omega]
        rw [this]
        rfl
      · obtain ⟨e1, g1, g2⟩ := hcb m (emit (.called m t) s)
        rw [if_neg (by omega), List.nil_append] at h2
        refine ⟨.called m t :: (e1 ++ e2), by rw [h1, g1]; simp [emit], ?_⟩
        rw [show (Ev.called m t :: (e1 ++ e2) : List (Ev φ τ ρ)) = [.called m t] ++ (e1 ++ e2) from rfl, calls_append, calls_append, transfers_append,
          transfers_append, show transfers [(.called m t : Ev φ τ ρ)] = [] from rfl, List.nil_append, List.filter_append, g2, h2]
        congr 1
        by_cases hmn' : m = n
        · subst hmn'
          rw [if_pos ⟨Nat.le_refl _, by simp [ht]⟩]
          simp [calls]
        · rw [if_neg (by omega)]
          simp [calls, hmn']
    · rw [if_neg ht] at h1 ⊢
      refine ⟨e2, h1, ?_⟩
      by_cases hmn : m = n
      · subst hmn
        rw [if_neg (by omega), List.nil_append] at h2
        rw [if_neg (by simp [ht])]
        exact h2
      · rw [hidx hmn]
        exact h2

theorem order_receive (env : Env φ σ τ ρ) (n : Nat) (f : φ) (s : State φ σ τ ρ) (cb : Nat → State φ σ τ ρ → State φ σ τ ρ × Bool)
    (answer : State φ σ τ ρ → State φ σ τ ρ × Bool) (hcb : ∀ m s, InOrder env n s (cb m s).1) (hst : ∀ m, m < n → ∀ s, Still s (cb m s).1)
    (ha : ∀ s, InOrder env n s (answer s).1) : InOrder env n s (receive env f cb answer s).1 := by
  unfold receive
  simp only
  generalize env.reassemble (emit (.received f) s).reassembly f = q
  obtain ⟨st, o⟩ := q
  cases o with
  | none => exact .quiet (.received f) rfl rfl rfl
  | some t =>
    simp only
    split
    · rename_i hu
      have h0 : InOrder env n s (emit (.transfer t) { emit (.received f) s with reassembly := st }) :=
        ⟨[.received f, .transfer t], by simp [emit], by simp [calls, transfers, wanted, hu]⟩
      refine h0.trans ?_
      generalize emit (.transfer t) { emit (.received f) s with reassembly := st } = u
      unfold respond
      split
      · exact .refl _
      · rename_i r _
        have h1 : InOrder env n u (emit (.answered r t) { u with timers := u.timers.erase r }) := .quiet (.answered r t) rfl rfl rfl
        have h2 := h1.trans (ha _)
        generalize answer (emit (.answered r t) { u with timers := u.timers.erase r }) = q at *
        obtain ⟨q, b⟩ := q
        cases b with
        | true => exact h2
        | false =>
          have h3 : InOrder env n u (emit (.returned r) q) := h2.trans (.quiet (.returned r) rfl rfl rfl)
          simp only
          split
          · exact h3.of_eq rfl
          · exact h3.trans (.quiet .keyError rfl rfl rfl)
    · rename_i hu
      obtain ⟨e, h1, h2⟩ := order_callAll env n cb t hcb hst env.handlers 0 (emit (.transfer t) { emit (.received f) s with reassembly := st })
      refine ⟨.received f :: .transfer t :: e, by rw [h1]; simp [emit], ?_⟩
      have e1 : calls n (.received f :: .transfer t :: e : List (Ev φ τ ρ)) = calls n e := rfl
      have e2 : transfers (.received f :: .transfer t :: e : List (Ev φ τ ρ)) = t :: transfers e := rfl
      rw [e1, e2, h2]
      simp only [Nat.zero_le, true_and, Nat.sub_zero, List.filter_cons, wanted, hu, Bool.not_false, Bool.true_and, Bool.not_eq_true] at *
      split <;> simp_all

theorem order_exec (env : Env φ σ τ ρ) (n : Nat) (x : Script φ ρ) (hx : Calm n x) : ∀ s, InOrder env n s (exec env x s).1 := by
  induction x with
  | done => intro s; exact .refl s
  | request r next ih =>
    intro s
    have h1 : InOrder env n s (ask r s) := .quiet (.asked r) rfl rfl rfl
    exact h1.trans (ih hx _)
  | frame f inner answer next ih1 ih2 ih3 =>
    intro s
    have h1 := order_receive env n f s (fun m => exec env (inner m)) (exec env answer) (fun m => ih1 m (hx.2.1 m))
      (fun m hm => still_exec env _ (hx.1 m hm)) (ih2 hx.2.2.1)
    simp only [exec]
    generalize receive env f (fun n => exec env (inner n)) (exec env answer) s = q at *
    obtain ⟨q, b⟩ := q
    cases b with
    | true => exact h1
    | false => exact h1.trans (ih3 hx.2.2.2 _)
  | timeout r inner next ih1 ih2 =>
    intro s
    simp only [exec]
    split
    · have h0 : InOrder env n s (expire r s) := .quiet (.expired r) rfl rfl rfl
      have h1 := h0.trans (ih1 hx.1 _)
      generalize exec env inner (expire r s) = q at *
      obtain ⟨q, b⟩ := q
      cases b with
      | true => exact h1
      | false => exact h1.trans (ih2 hx.2 _)
    · exact ih2 hx.2 s

/-- A handler is called for the transfers in the order of their arrival if nothing is received by calls of `spin` in the handlers that were registered
before it. The first handler always is. -/
theorem C137_order_partial (env : Env φ σ τ ρ) (st : σ) (xs : List (Script φ ρ)) (n : Nat) (h : ∀ x ∈ xs, Calm n x) :
    let s := run env { reassembly := st } xs
    calls n s.trace = (transfers s.trace).filter (wanted env n) := by
  have main : ∀ (xs : List (Script φ ρ)) (s : State φ σ τ ρ), (∀ x ∈ xs, Calm n x) → InOrder env n s (run env s xs) := by
    intro xs
    induction xs with
    | nil => intro s _; exact .refl s
    | cons x xs ih =>
      intro s h
      exact (order_exec env n x (h x (by simp)) s).trans (ih _ fun y hy => h y (by simp [hy]))
  obtain ⟨ev, h1, h2⟩ := main xs { reassembly := st } h
  simp only [List.nil_append] at h1
  simp only [h1]
  exact h2

theorem calm_zero (x : Script φ ρ) : Calm 0 x := by
  induction x with
  | done => trivial
  | request _ _ ih => exact ih
  | frame _ _ _ _ h1 h2 h3 => exact ⟨fun i hi => absurd hi (Nat.not_lt_zero i), h1, h2, h3⟩
  | timeout _ _ _ h1 h2 => exact ⟨h1, h2⟩

/-! ## Requests -/

/-- The fate of the requests, if no two of them have the same key. -/
structure Inv (s : State φ σ τ ρ) : Prop where
  outstanding : s.outstanding.Nodup
  timers : s.timers.Nodup
  open_ : ∀ r, r ∈ s.outstanding → r ∈ asked s.trace ∧ .returned r ∉ s.trace ∧ .expired r ∉ s.trace
  waiting : ∀ r, r ∈ s.timers → r ∈ asked s.trace ∧ answersTo r s.trace = [] ∧ .expired r ∉ s.trace
  exclusive : ∀ r, .expired r ∈ s.trace → answersTo r s.trace = []
  once : ∀ r a b, s.trace = a ++ .expired r :: b → .expired r ∉ b
  over : ∀ r a b, s.trace = a ++ .returned r :: b → answersTo r b = []
  known : ∀ r, r ∉ asked s.trace → .returned r ∉ s.trace ∧ answersTo r s.trace = [] ∧ .expired r ∉ s.trace
  fate : ∀ r, r ∈ asked s.trace → r ∈ s.timers ∨ answersTo r s.trace ≠ [] ∨ .expired r ∈ s.trace

theorem split_snoc {α : Type} {l a b : List α} {e x : α} (h : l ++ [e] = a ++ x :: b) : (b = [] ∧ x = e ∧ a = l) ∨ ∃ b', b = b' ++ [e] ∧ l = a ++ x :: b' := by
  rcases List.eq_nil_or_concat b with rfl | ⟨b', y, rfl⟩
  · have := List.append_inj' h rfl
    simp only [List.cons.injEq, and_true] at this
    exact .inl ⟨rfl, this.2.symm, this.1.symm⟩
  · rw [List.concat_eq_append] at h ⊢
    rw [show a ++ x :: (b' ++ [y]) = (a ++ x :: b') ++ [y] by simp] at h
    have := List.append_inj' h rfl
    simp only [List.cons.injEq, and_true] at this
    exact .inr ⟨b', by rw [this.2], this.1⟩

/-- An event that has nothing to do with requests. -/
def Neutral (e : Ev φ τ ρ) : Prop := asked [e] = [] ∧ (∀ r, answersTo r [e] = []) ∧ (∀ r, e ≠ .returned r) ∧ ∀ r, e ≠ .expired r

theorem Inv.neutral {s s' : State φ σ τ ρ} (i : Inv s) (e : Ev φ τ ρ) (he : Neutral e) (ht : s'.trace = s.trace ++ [e])
    (ho : s'.outstanding = s.outstanding) (htm : s'.timers = s.timers) : Inv s' := by
  obtain ⟨n1, n2, n3, n4⟩ := he
  have a1 : asked s'.trace = asked s.trace := by rw [ht, asked_append, n1, List.append_nil]
  have a2 : ∀ r, answersTo r s'.trace = answersTo r s.trace := fun r => by rw [ht, answersTo_append, n2, List.append_nil]
  have a3 : ∀ r, .returned r ∈ s'.trace ↔ .returned r ∈ s.trace := fun r => by rw [ht]; simp [Ne.symm (n3 r)]
  have a4 : ∀ r, .expired r ∈ s'.trace ↔ .expired r ∈ s.trace := fun r => by rw [ht]; simp [Ne.symm (n4 r)]
  refine ⟨ho ▸ i.outstanding, htm ▸ i.timers, ?_, ?_, ?_, ?_, ?_, ?_, ?_⟩
  · intro r hr; rw [ho] at hr; rw [a1, a3, a4]; exact i.open_ r hr
  · intro r hr; rw [htm] at hr; rw [a1, a2, a4]; exact i.waiting r hr
  · intro r hr; rw [a2]; exact i.exclusive r ((a4 r).1 hr)
  · intro r a b h
    rw [ht] at h
    rcases split_snoc h with ⟨_, hx, _⟩ | ⟨b', rfl, hb⟩
    · exact absurd hx.symm (n4 r)
    · have := i.once r a b' hb
      simp [this, Ne.symm (n4 r)]
  · intro r a b h
    rw [ht] at h
    rcases split_snoc h with ⟨_, hx, _⟩ | ⟨b', rfl, hb⟩
    · exact absurd hx.symm (n3 r)
    · rw [answersTo_append, n2, List.append_nil]; exact i.over r a b' hb
  · intro r hr; rw [a1] at hr; rw [a2, a3, a4]; exact i.known r hr
  · intro r hr; rw [a1] at hr; rw [a2, a4, htm]; exact i.fate r hr

theorem inv_ask {s : State φ σ τ ρ} (i : Inv s) (r : ρ) (h : (asked (ask r s).trace).Nodup) : Inv (ask r s) := by
  have hs : asked (ask r s).trace = asked s.trace ++ [r] := by simp only [ask, emit, asked_append]; rfl
  rw [hs, List.nodup_append] at h
  have hnew : r ∉ asked s.trace := fun hr => h.2.2 r hr r (by simp) rfl
  have ho : r ∉ s.outstanding := fun hr => hnew (i.open_ r hr).1
  have ht : r ∉ s.timers := fun hr => hnew (i.waiting r hr).1
  have a2 : ∀ q, answersTo q (ask r s).trace = answersTo q s.trace := fun q => by
    simp only [ask, emit, answersTo_append]; exact List.append_nil _
  have a3 : ∀ q, .returned q ∈ (ask r s).trace ↔ .returned q ∈ s.trace := fun q => by simp [ask, emit]
  have a4 : ∀ q, .expired q ∈ (ask r s).trace ↔ .expired q ∈ s.trace := fun q => by simp [ask, emit]
  have e1 : (ask r s).outstanding = s.outstanding ++ [r] := by simp [ask, emit, ho]
  have e2 : (ask r s).timers = s.timers ++ [r] := by simp [ask, emit]
  obtain ⟨k1, k2, k3⟩ := i.known r hnew
  refine ⟨?_, ?_, ?_, ?_, ?_, ?_, ?_, ?_, ?_⟩
  · rw [e1, List.nodup_append]
    exact ⟨i.outstanding, by simp, fun a ha b hb => by rw [List.mem_singleton.1 hb]; exact fun e => ho (e ▸ ha)⟩
  · rw [e2, List.nodup_append]
    exact ⟨i.timers, by simp, fun a ha b hb => by rw [List.mem_singleton.1 hb]; exact fun e => ht (e ▸ ha)⟩
  · intro q hq
    rw [e1, List.mem_append, List.mem_singleton] at hq
    rw [hs, a3, a4]
    rcases hq with hq | rfl
    · exact ⟨List.mem_append_left _ (i.open_ q hq).1, (i.open_ q hq).2⟩
    · exact ⟨by simp, k1, k3⟩
  · intro q hq
    rw [e2, List.mem_append, List.mem_singleton] at hq
    rw [hs, a2, a4]
    rcases hq with hq | rfl
    · exact ⟨List.mem_append_left _ (i.waiting q hq).1, (i.waiting q hq).2⟩
    · exact ⟨by simp, k2, k3⟩
  · intro q hq; rw [a2]; exact i.exclusive q ((a4 q).1 hq)
  · intro q a b h
    rcases split_snoc (show s.trace ++ [.asked r] = _ from h) with ⟨_, hx, _⟩ | ⟨b', rfl, hb⟩
    · exact nomatch hx
    · have := i.once q a b' hb
      simp [this]
  · intro q a b h
    rcases split_snoc (show s.trace ++ [.asked r] = _ from h) with ⟨_, hx, _⟩ | ⟨b', rfl, hb⟩
    · exact nomatch hx
    · rw [answersTo_append, i.over q a b' hb]; rfl
  · intro q hq
    rw [hs, List.mem_append, not_or] at hq
    rw [a2, a3, a4]
    exact i.known q hq.1
  · intro q hq
    rw [hs, List.mem_append, List.mem_singleton] at hq
    rw [a2, a4, e2, List.mem_append]
    rcases hq with hq | rfl
    · rcases i.fate q hq with h | h
      · exact .inl (.inl h)
      · exact .inr h
    · exact .inl (.inr (by simp))

theorem inv_expire {s : State φ σ τ ρ} (i : Inv s) (r : ρ) (h : r ∈ s.timers) : Inv (expire r s) := by
  have a1 : asked (expire r s).trace = asked s.trace := by simp only [expire, emit, asked_append]; exact List.append_nil _
  have a2 : ∀ q, answersTo q (expire r s).trace = answersTo q s.trace := fun q => by
    simp only [expire, emit, answersTo_append]; exact List.append_nil _
  have a3 : ∀ q, .returned q ∈ (expire r s).trace ↔ .returned q ∈ s.trace := fun q => by simp [expire, emit]
  have a4 : ∀ q, .expired q ∈ (expire r s).trace ↔ .expired q ∈ s.trace ∨ q = r := fun q => by simp [expire, emit]
  obtain ⟨k1, k2, k3⟩ := i.waiting r h
  refine ⟨i.outstanding.erase _, i.timers.erase _, ?_, ?_, ?_, ?_, ?_, ?_, ?_⟩
  · intro q hq
    have hq' := (i.outstanding.mem_erase_iff).1 hq
    have := i.open_ q hq'.2
    rw [a1, a3, a4]
    exact ⟨this.1, this.2.1, fun hh => hh.elim this.2.2 hq'.1⟩
  · intro q hq
    have hq' := (i.timers.mem_erase_iff).1 hq
    have := i.waiting q hq'.2
    rw [a1, a2, a4]
    exact ⟨this.1, this.2.1, fun hh => hh.elim this.2.2 hq'.1⟩
  · intro q hq
    rw [a2]
    rcases (a4 q).1 hq with hq | rfl
    · exact i.exclusive q hq
    · exact k2
  · intro q a b h
    rcases split_snoc (show s.trace ++ [.expired r] = _ from h) with ⟨rfl, _, _⟩ | ⟨b', rfl, hb⟩
    · simp
    · have h1 := i.once q a b' hb
      rw [List.mem_append, not_or]
      refine ⟨h1, fun hh => ?_⟩
      cases List.mem_singleton.1 hh
      exact k3 (by rw [hb]; simp)
  · intro q a b h
    rcases split_snoc (show s.trace ++ [.expired r] = _ from h) with ⟨_, hx, _⟩ | ⟨b', rfl, hb⟩
    · exact nomatch hx
    · rw [answersTo_append, i.over q a b' hb]; rfl
  · intro q hq
    rw [a1] at hq
    rw [a2, a3, a4]
    obtain ⟨l1, l2, l3⟩ := i.known q hq
    exact ⟨l1, l2, fun hh => hh.elim l3 fun e => hq (e ▸ k1)⟩
  · intro q hq
    rw [a1] at hq
    rw [a2, a4]
    by_cases e : q = r
    · exact .inr (.inr (.inr e))
    · rcases i.fate q hq with h | h | h
      · exact .inl ((i.timers.mem_erase_iff).2 ⟨e, h⟩)
      · exact .inr (.inl h)
      · exact .inr (.inr (.inl h))

theorem inv_answered {s : State φ σ τ ρ} (i : Inv s) (r : ρ) (t : τ) (h : r ∈ s.outstanding) :
    Inv (emit (.answered r t) { s with timers := s.timers.erase r }) := by
  have a1 : asked (s.trace ++ [.answered r t]) = asked s.trace := by rw [asked_append]; exact List.append_nil _
  have a2 : ∀ q, q ≠ r → answersTo q (s.trace ++ [.answered r t]) = answersTo q s.trace := fun q hq => by
    rw [answersTo_append]
    simp [answersTo, Ne.symm hq]
  have a2' : answersTo r (s.trace ++ [.answered r t]) = answersTo r s.trace ++ [t] := by
    rw [answersTo_append]
    simp [answersTo]
  have a3 : ∀ q, .returned q ∈ s.trace ++ [.answered r t] ↔ .returned q ∈ s.trace := fun q => by simp
  have a4 : ∀ q, .expired q ∈ s.trace ++ [.answered r t] ↔ .expired q ∈ s.trace := fun q => by simp
  obtain ⟨k1, k2, k3⟩ := i.open_ r h
  refine ⟨i.outstanding, i.timers.erase _, ?_, ?_, ?_, ?_, ?_, ?_, ?_⟩ <;> simp only [emit]
  · intro q hq
    rw [a1, a3, a4]
    exact i.open_ q hq
  · intro q hq
    have hq' := (i.timers.mem_erase_iff).1 hq
    rw [a1, a2 q hq'.1, a4]
    exact i.waiting q hq'.2
  · intro q hq
    rw [a4] at hq
    rw [a2 q (fun e => k3 (e ▸ hq))]
    exact i.exclusive q hq
  · intro q a b h
    rcases split_snoc h with ⟨_, hx, _⟩ | ⟨b', rfl, hb⟩
    · exact nomatch hx
    · have := i.once q a b' hb
      simp [this]
  · intro q a b h
    rcases split_snoc h with ⟨_, hx, _⟩ | ⟨b', rfl, hb⟩
    · exact nomatch hx
    · have hne : q ≠ r := by
        rintro rfl
        exact k2 (by rw [hb]; simp)
      rw [answersTo_append, i.over q a b' hb]
      simp [answersTo, Ne.symm hne]
  · intro q hq
    rw [a1] at hq
    rw [a2 q (fun e => hq (e ▸ k1)), a3, a4]
    exact i.known q hq
  · intro q hq
    rw [a1] at hq
    rw [a4]
    by_cases e : q = r
    · subst e
      rw [a2']
      exact .inr (.inl (by simp))
    · rw [a2 q e]
      rcases i.fate q hq with h | h
      · exact .inl ((i.timers.mem_erase_iff).2 ⟨e, h⟩)
      · exact .inr h

theorem inv_returned {s : State φ σ τ ρ} (i : Inv s) (r : ρ) (hr : r ∈ asked s.trace) :
    Inv { emit (.returned r) s with outstanding := s.outstanding.erase r } := by
  have a1 : asked (s.trace ++ [.returned r]) = asked s.trace := by rw [asked_append]; exact List.append_nil _
  have a2 : ∀ q, answersTo q (s.trace ++ [.returned r]) = answersTo q s.trace := fun q => by
    rw [answersTo_append]; exact List.append_nil _
  have a3 : ∀ q, .returned q ∈ s.trace ++ [.returned r] ↔ .returned q ∈ s.trace ∨ q = r := fun q => by simp
  have a4 : ∀ q, .expired q ∈ s.trace ++ [.returned r] ↔ .expired q ∈ s.trace := fun q => by simp
  refine ⟨i.outstanding.erase _, i.timers, ?_, ?_, ?_, ?_, ?_, ?_, ?_⟩ <;> simp only [emit]
  · intro q hq
    have hq' := (i.outstanding.mem_erase_iff).1 hq
    have := i.open_ q hq'.2
    rw [a1, a3, a4]
    exact ⟨this.1, fun hh => hh.elim this.2.1 hq'.1, this.2.2⟩
  · intro q hq
    rw [a1, a2, a4]
    exact i.waiting q hq
  · intro q hq
    rw [a4] at hq
    rw [a2]
    exact i.exclusive q hq
  · intro q a b h
    rcases split_snoc h with ⟨_, hx, _⟩ | ⟨b', rfl, hb⟩
    · exact nomatch hx
    · have := i.once q a b' hb
      simp [this]
  · intro q a b h
    rcases split_snoc h with ⟨rfl, _, _⟩ | ⟨b', rfl, hb⟩
    · rfl
    · rw [answersTo_append, i.over q a b' hb]; rfl
  · intro q hq
    rw [a1] at hq
    rw [a2, a3, a4]
    obtain ⟨l1, l2, l3⟩ := i.known q hq
    exact ⟨fun hh => hh.elim l1 fun e => hq (e ▸ hr), l2, l3⟩
  · intro q hq
    rw [a1] at hq
    rw [a2, a4]
    exact i.fate q hq

/-- A response to `r`, addressed to the node. -/
def responds (env : Env φ σ τ ρ) (r : ρ) (t : τ) : Bool := env.toUs t && env.answers t r

/-- No two requests have the same key, and no request is responded to twice. -/
def Single (env : Env φ σ τ ρ) (l : List (Ev φ τ ρ)) : Prop := (asked l).Nodup ∧ ∀ r, ((transfers l).filter (responds env r)).length ≤ 1

theorem Single.left {env : Env φ σ τ ρ} {a b : List (Ev φ τ ρ)} (h : Single env (a ++ b)) : Single env a := by
  refine ⟨?_, fun r => ?_⟩
  · have := h.1
    rw [asked_append, List.nodup_append] at this
    exact this.1
  · have := h.2 r
    rw [transfers_append, List.filter_append, List.length_append] at this
    omega

/-- The callbacks of requests are called with responses to them, each at most once. -/
def Matched (env : Env φ σ τ ρ) (l : List (Ev φ τ ρ)) : Prop := ∀ r, (answersTo r l).Sublist ((transfers l).filter (responds env r))

theorem Matched.append {env : Env φ σ τ ρ} {a b : List (Ev φ τ ρ)} (h : Matched env a) (g : Matched env b) : Matched env (a ++ b) := by
  intro r
  rw [answersTo_append, transfers_append, List.filter_append]
  exact (h r).append (g r)

/-- Everything about requests. -/
def Good (env : Env φ σ τ ρ) (s s' : State φ σ τ ρ) : Prop :=
  ∃ ev, s'.trace = s.trace ++ ev ∧ Matched env ev ∧ ((asked s'.trace).Nodup → Inv s → Inv s') ∧
    (∀ r, r ∈ s.outstanding → r ∉ s.timers → answersTo r ev = [] → r ∉ asked ev → r ∈ s'.outstanding ∧ r ∉ s'.timers) ∧
    (Inv s → Matched env s.trace → Single env s'.trace → .keyError ∉ ev)

theorem Good.refl {env : Env φ σ τ ρ} (s : State φ σ τ ρ) : Good env s s :=
  ⟨[], by simp, fun _ => .slnil, fun _ i => i, fun _ h1 h2 _ _ => ⟨h1, h2⟩, fun _ _ _ h => nomatch h⟩

theorem Good.trans {env : Env φ σ τ ρ} {a b c : State φ σ τ ρ} (h : Good env a b) (g : Good env b c) : Good env a c := by
  obtain ⟨e1, h1, h2, h3, h4, h5⟩ := h
  obtain ⟨e2, g1, g2, g3, g4, g5⟩ := g
  have nod : (asked c.trace).Nodup → (asked b.trace).Nodup := by
    intro hn
    rw [g1, asked_append, List.nodup_append] at hn
    exact hn.1
  refine ⟨e1 ++ e2, by rw [g1, h1, List.append_assoc], h2.append g2, fun hn i => g3 hn (h3 (nod hn) i), ?_, ?_⟩
  · intro r ho ht ha hq
    rw [answersTo_append] at ha
    rw [asked_append, List.mem_append, not_or] at hq
    obtain ⟨x, y⟩ := h4 r ho ht (List.append_eq_nil_iff.1 ha).1 hq.1
    exact g4 r x y (List.append_eq_nil_iff.1 ha).2 hq.2
  · intro i m hs
    have hs' : Single env b.trace := by rw [g1] at hs; exact hs.left
    rw [List.mem_append, not_or]
    exact ⟨h5 i m hs', g5 (h3 hs'.1 i) (by rw [h1]; exact m.append h2) hs⟩

theorem Good.neutral {env : Env φ σ τ ρ} {s s' : State φ σ τ ρ} (e : Ev φ τ ρ) (he : Neutral e) (hk : e ≠ .keyError) (ht : s'.trace = s.trace ++ [e])
    (ho : s'.outstanding = s.outstanding) (htm : s'.timers = s.timers) : Good env s s' := by
  refine ⟨[e], ht, fun r => ?_, fun _ i => i.neutral e he ht ho htm, fun r h1 h2 _ _ => ⟨ho ▸ h1, htm ▸ h2⟩, fun _ _ _ => by simp [Ne.symm hk]⟩
  rw [he.2.1 r]
  exact List.nil_sublist _

theorem closed_good (env : Env φ σ τ ρ) : Closed env (Good env) where
  refl := Good.refl
  trans := fun _ _ _ => Good.trans
  ask := by
    intro r s
    refine ⟨[.asked r], rfl, fun q => List.nil_sublist _, fun hn i => inv_ask i r hn, ?_, fun _ _ _ => by simp⟩
    intro q h1 h2 _ h4
    have hne : q ≠ r := fun e => h4 (by simp [asked, e])
    refine ⟨?_, by simp [ask, emit, h2, hne]⟩
    simp only [ask, emit]
    split
    · exact h1
    · exact List.mem_append_left _ h1
  expire := by
    intro r s hr
    refine ⟨[.expired r], rfl, fun q => List.nil_sublist _, fun _ i => inv_expire i r hr, ?_, fun _ _ _ => by simp⟩
    intro q h1 h2 _ _
    have hne : q ≠ r := fun e => h2 (e ▸ hr)
    exact ⟨(List.mem_erase_of_ne hne).2 h1, fun hh => h2 ((List.mem_erase_of_ne hne).1 hh)⟩
  receive := by
    intro f s cb answer hcb ha
    unfold receive
    simp only
    generalize env.reassemble (emit (.received f) s).reassembly f = q
    obtain ⟨st, o⟩ := q
    have nr : Neutral (.received f : Ev φ τ ρ) := ⟨rfl, fun _ => rfl, (fun _ h => nomatch h), (fun _ h => nomatch h)⟩
    cases o with
    | none => exact .neutral (.received f) nr (fun h => nomatch h) rfl rfl rfl
    | some t =>
      have n1 : Good env s (emit (.received f) s) := .neutral (.received f) nr (fun h => nomatch h) rfl rfl rfl
      simp only
      split
      · rename_i hu
        refine n1.trans ?_
        generalize emit (.received f) s = s₁
        unfold respond
        split
        · exact .neutral (.transfer t) ⟨rfl, fun _ => rfl, (fun _ h => nomatch h), (fun _ h => nomatch h)⟩ (fun h => nomatch h) rfl rfl rfl
        · rename_i r hf
          have hmem : r ∈ s₁.outstanding := List.mem_of_find?_eq_some hf
          have hans : env.answers t r = true := List.find?_some hf
          have htr : Good env s₁ (emit (.transfer t) { s₁ with reassembly := st }) :=
            .neutral (.transfer t) ⟨rfl, fun _ => rfl, (fun _ h => nomatch h), (fun _ h => nomatch h)⟩ (fun h => nomatch h) rfl rfl rfl
          -- the state in which the callback is called
          generalize hu1 : emit (.answered r t) { emit (.transfer t) { s₁ with reassembly := st } with
            timers := (emit (.transfer t) { s₁ with reassembly := st }).timers.erase r } = u
          have ut : u.trace = s₁.trace ++ [.transfer t, .answered r t] := by rw [← hu1]; simp [emit]
          have uo : u.outstanding = s₁.outstanding := by rw [← hu1]; rfl
          have um : u.timers = s₁.timers.erase r := by rw [← hu1]; rfl
          have ui : Inv s₁ → Inv u := by
            intro i
            rw [← hu1]
            have i2 : Inv (emit (.transfer t) { s₁ with reassembly := st }) :=
              i.neutral (.transfer t) ⟨rfl, fun _ => rfl, (fun _ h => nomatch h), (fun _ h => nomatch h)⟩ rfl rfl rfl
            exact inv_answered i2 r t hmem
          have mt : Matched env [.transfer t, .answered r t] := by
            intro q
            by_cases e : r = q
            · subst e
              have : responds env r t = true := by simp [responds, hu, hans]
              simp [answersTo, transfers, this]
            · simp [answersTo, e]
          obtain ⟨ev, q1, q2, q3, q4, q5⟩ := ha u
          have keep : ∀ q, q ∈ s₁.outstanding → q ∉ s₁.timers → answersTo q ([.transfer t, .answered r t] ++ ev) = [] → q ∉ asked ev →
              q ≠ r ∧ q ∈ (answer u).1.outstanding ∧ q ∉ (answer u).1.timers := by
            intro q k1 k2 k3 k4
            rw [answersTo_append, List.append_eq_nil_iff] at k3
            have hne : q ≠ r := by
              rintro rfl
              simp [answersTo] at k3
            exact ⟨hne, q4 q (uo ▸ k1) (by rw [um]; exact fun hh => k2 (List.mem_of_mem_erase hh)) k3.2 k4⟩
          generalize answer u = q at *
          obtain ⟨q, b⟩ := q
          simp only at q1 q3 q4 q5 keep ⊢
          cases b with
          | true =>
            refine ⟨[.transfer t, .answered r t] ++ ev, by simp only; rw [q1, ut, List.append_assoc], mt.append q2, fun hn i => q3 hn (ui i), ?_, ?_⟩
            · intro x k1 k2 k3 k4
              rw [asked_append, List.mem_append, not_or] at k4
              exact (keep x k1 k2 k3 k4.2).2
            · intro i m hs
              have := q5 (ui i) (by rw [ut]; exact m.append mt) hs
              simp [this]
          | false =>
            -- until the callback has returned
            have full : Single env (q.trace) → Inv s₁ → Matched env s₁.trace → r ∈ q.outstanding := by
              intro hs i m
              refine (q4 r (uo ▸ hmem) (by rw [um]; exact fun hh => ((i.timers.mem_erase_iff).1 hh).1 rfl) ?_ ?_).1
              · have h1 := (m.append mt).append q2 r
                have h2 := hs.2 r
                rw [q1, ut] at h2
                have h3 := h1.length_le
                have h4 : (answersTo r (s₁.trace ++ [.transfer t, .answered r t] ++ ev)).length =
                    (answersTo r s₁.trace).length + 1 + (answersTo r ev).length := by
                  rw [answersTo_append, answersTo_append, List.length_append, List.length_append]
                  congr 2
                  simp [answersTo]
                exact List.length_eq_zero_iff.1 (by omega)
              · have h1 := hs.1
                rw [q1, asked_append, List.nodup_append] at h1
                intro hh
                exact h1.2.2 r ((ui i).open_ r (uo ▸ hmem)).1 r hh rfl
            have asked_r : Inv s₁ → (asked q.trace).Nodup → r ∈ asked q.trace := by
              intro i hn
              rw [q1, asked_append]
              exact List.mem_append_left _ ((ui i).open_ r (uo ▸ hmem)).1
            have mr : Matched env [(.returned r : Ev φ τ ρ)] := fun _ => List.nil_sublist _
            have mk : Matched env [(.returned r : Ev φ τ ρ), .keyError] := fun _ => List.nil_sublist _
            have nod : ∀ l : List (Ev φ τ ρ), asked l = [] → asked (q.trace ++ l) = asked q.trace := by
              intro l hl; rw [asked_append, hl, List.append_nil]
            dsimp only
            split
            · rename_i hin
              refine ⟨[.transfer t, .answered r t] ++ ev ++ [.returned r], by simp only [emit]; rw [q1, ut]; simp, (mt.append q2).append mr, ?_, ?_, ?_⟩
              · intro hn i
                have hn' : (asked q.trace).Nodup := by rw [← nod [.returned r] rfl]; exact hn
                exact inv_returned (q3 hn' (ui i)) r (asked_r i hn')
              · intro x k1 k2 k3 k4
                rw [answersTo_append, List.append_eq_nil_iff] at k3
                rw [asked_append, asked_append, List.mem_append, List.mem_append, not_or, not_or] at k4
                obtain ⟨hne, y1, y2⟩ := keep x k1 k2 k3.1 k4.1.2
                exact ⟨(List.mem_erase_of_ne hne).2 y1, y2⟩
              · intro i m hs
                have := q5 (ui i) (by rw [ut]; exact m.append mt) (Single.left (b := [.returned r]) hs)
                simp [this]
            · rename_i hin
              refine ⟨[.transfer t, .answered r t] ++ ev ++ [.returned r, .keyError], by simp only [emit]; rw [q1, ut]; simp,
                (mt.append q2).append mk, ?_, ?_, ?_⟩
              · intro hn i
                have hn' : (asked q.trace).Nodup := by
                  rw [← nod [.returned r, .keyError] rfl]
                  simpa [emit] using hn
                have h1 := inv_returned (q3 hn' (ui i)) r (asked_r i hn')
                have h2 : q.outstanding.erase r = q.outstanding := List.erase_of_not_mem hin
                rw [h2] at h1
                exact Inv.neutral h1 .keyError ⟨rfl, fun _ => rfl, (fun _ h => nomatch h), (fun _ h => nomatch h)⟩ rfl rfl rfl
              · intro x k1 k2 k3 k4
                rw [answersTo_append, List.append_eq_nil_iff] at k3
                rw [asked_append, asked_append, List.mem_append, List.mem_append, not_or, not_or] at k4
                obtain ⟨hne, y1, y2⟩ := keep x k1 k2 k3.1 k4.1.2
                exact ⟨y1, y2⟩
              · intro i m hs
                have hs' : Single env q.trace := Single.left (b := [.returned r, .keyError]) (by simpa [emit] using hs)
                exact absurd (full hs' i m) hin
      · have n2 : Good env (emit (.received f) s) (emit (.transfer t) { emit (.received f) s with reassembly := st }) :=
          .neutral (.transfer t) ⟨rfl, fun _ => rfl, (fun _ h => nomatch h), (fun _ h => nomatch h)⟩ (fun h => nomatch h) rfl rfl rfl
        refine (n1.trans n2).trans (closed_callAll Good.refl (fun _ _ _ => Good.trans) cb t (fun n s => ?_) _ _ _)
        have h1 : Good env s (emit (.called n t) s) :=
          .neutral (.called n t) ⟨rfl, fun _ => rfl, (fun _ h => nomatch h), (fun _ h => nomatch h)⟩ (fun h => nomatch h) rfl rfl rfl
        exact h1.trans (hcb n _)

theorem inv_start (st : σ) : Inv ({ reassembly := st } : State φ σ τ ρ) :=
  ⟨.nil, .nil, (fun _ h => nomatch h), (fun _ h => nomatch h), (fun _ h => nomatch h), (fun _ a _ h => by cases a <;> cases h),
    (fun _ a _ h => by cases a <;> cases h), fun _ _ => ⟨(fun h => nomatch h), rfl, (fun h => nomatch h)⟩, (fun _ h => nomatch h)⟩

/-- The callback of a request is called with responses to that request only, in the order of their arrival, with each of them at most once. -/
theorem C137_responses (env : Env φ σ τ ρ) (st : σ) (xs : List (Script φ ρ)) (r : ρ) :
    let s := run env { reassembly := st } xs
    (answersTo r s.trace).Sublist ((transfers s.trace).filter fun t => env.toUs t && env.answers t r) := by
  obtain ⟨ev, h1, h2, _⟩ := closed_run (closed_good env) xs { reassembly := st }
  simp only [List.nil_append] at h1
  simp only [h1]
  exact h2 r

/-- If no two requests have the same key: every request is still waiting, or its callback has been called. It has been called with responses, or once
with `None`, not both; and no more after it has returned from a call with a response. -/
theorem C137_requests (env : Env φ σ τ ρ) (st : σ) (xs : List (Script φ ρ)) (hn : (asked (run env { reassembly := st } xs).trace).Nodup) (r : ρ) :
    let s := run env { reassembly := st } xs
    (r ∈ asked s.trace → r ∈ s.timers ∨ answersTo r s.trace ≠ [] ∨ .expired r ∈ s.trace) ∧
    (.expired r ∈ s.trace → answersTo r s.trace = []) ∧
    (∀ a b, s.trace = a ++ .expired r :: b → .expired r ∉ b) ∧
    (∀ a b, s.trace = a ++ .returned r :: b → answersTo r b = []) := by
  obtain ⟨ev, h1, h2, h3, _⟩ := closed_run (closed_good env) xs { reassembly := st }
  have i := h3 hn (inv_start st)
  exact ⟨i.fate r, i.exclusive r, i.once r, i.over r⟩

/-- If in addition no response is repeated, `spin` does not raise `KeyError`, and no callback is called twice. -/
theorem C137_single_partial (env : Env φ σ τ ρ) (st : σ) (xs : List (Script φ ρ)) (hn : (asked (run env { reassembly := st } xs).trace).Nodup)
    (h : ∀ r, ((transfers (run env { reassembly := st } xs).trace).filter fun t => env.toUs t && env.answers t r).length ≤ 1) :
    let s := run env { reassembly := st } xs
    .keyError ∉ s.trace ∧ ∀ r, (answersTo r s.trace).length ≤ 1 := by
  obtain ⟨ev, h1, h2, h3, _, h5⟩ := closed_run (closed_good env) xs { reassembly := st }
  simp only [List.nil_append] at h1
  refine ⟨?_, fun r => ?_⟩
  · rw [h1]
    exact h5 (inv_start st) (fun _ => List.nil_sublist _) ⟨hn, h⟩
  · have := (C137_responses env st xs r).length_le
    exact Nat.le_trans this (h r)

/-- `spin` raises nothing else, so that without a `KeyError` everything is carried out. -/
theorem C137_raises (env : Env φ σ τ ρ) (x : Script φ ρ) : ∀ s, (exec env x s).2 = true → .keyError ∈ (exec env x s).1.trace := by
  induction x with
  | done => intro s h; exact nomatch h
  | request r next ih => intro s h; exact ih _ h
  | frame f inner answer next _ ih2 ih3 =>
    intro s h
    have h1 : ∀ cb : Nat → State φ σ τ ρ → State φ σ τ ρ × Bool, (receive env f cb (exec env answer) s).2 = true →
        .keyError ∈ (receive env f cb (exec env answer) s).1.trace := by
      intro cb
      unfold receive
      simp only
      generalize env.reassemble (emit (.received f) s).reassembly f = q
      obtain ⟨st, o⟩ := q
      cases o with
      | none => intro h; exact nomatch h
      | some t =>
        simp only
        split
        · unfold respond
          split
          · intro h; exact nomatch h
          · rename_i r _
            generalize emit (.transfer t) { emit (.received f) s with reassembly := st } = u
            have h2 := ih2 (emit (.answered r t) { u with timers := u.timers.erase r })
            generalize exec env answer (emit (.answered r t) { u with timers := u.timers.erase r }) = q at *
            obtain ⟨q, b⟩ := q
            cases b with
            | true => exact h2
            | false =>
              dsimp only
              split
              · intro h; exact nomatch h
              · intro _; simp [emit]
        · intro h; exact nomatch h
    have h2 := h1 fun n => exec env (inner n)
    simp only [exec] at h ⊢
    generalize receive env f (fun n => exec env (inner n)) (exec env answer) s = q at *
    obtain ⟨q, b⟩ := q
    cases b with
    | true => exact h2 rfl
    | false => exact ih3 _ h
  | timeout r inner next ih1 ih2 =>
    intro s h
    simp only [exec] at h ⊢
    split
    · rename_i hr
      rw [if_pos hr] at h
      have h1 := ih1 (expire r s)
      generalize exec env inner (expire r s) = q at *
      obtain ⟨q, b⟩ := q
      cases b with
      | true => exact h1 rfl
      | false => exact ih2 _ h
    · rename_i hr
      rw [if_neg hr] at h
      exact ih2 _ h

/-! ## The full statement -/

/-- What has happened: no `KeyError` if nothing was raised; else a `KeyError`, and nothing after it. -/
def Ends (raised : Bool) (l : List (Ev φ τ ρ)) : Prop :=
  match raised with
  | false => .keyError ∉ l
  | true => ∃ l', l = l' ++ [.keyError] ∧ .keyError ∉ l'

theorem Ends.cons {b : Bool} {l : List (Ev φ τ ρ)} (h : Ends b l) (e : Ev φ τ ρ) (he : e ≠ .keyError) : Ends b (e :: l) := by
  cases b with
  | false =>
    intro hm
    rcases List.mem_cons.1 hm with hm | hm
    · exact he hm.symm
    · exact h hm
  | true =>
    obtain ⟨l', rfl, h'⟩ := h
    refine ⟨e :: l', rfl, fun hm => ?_⟩
    rcases List.mem_cons.1 hm with hm | hm
    · exact he hm.symm
    · exact h' hm

theorem Ends.append {b : Bool} {k l : List (Ev φ τ ρ)} (hk : Ends false k) (h : Ends b l) : Ends b (k ++ l) := by
  induction k with
  | nil => exact h
  | cons e k ih => exact (ih fun hm => hk (List.mem_cons_of_mem _ hm)).cons e fun he => hk (he ▸ List.mem_cons_self ..)

/-- A node without handlers (those catch exceptions): an exception in a nested `spin` ends all calls of `spin` around it, nothing is done after it, and
the application sees it. -/
theorem C137_propagates (env : Env φ σ τ ρ) (hn : env.handlers = []) (x : Script φ ρ) : ∀ s, ∃ new, (exec env x s).1.trace = s.trace ++ new ∧
    Ends (exec env x s).2 new := by
  induction x with
  | done => intro s; exact ⟨[], by simp [exec], by simp [exec, Ends]⟩
  | request r next ih =>
    intro s
    obtain ⟨new, h1, h2⟩ := ih (ask r s)
    exact ⟨.asked r :: new, by rw [exec, h1]; simp [ask, emit], h2.cons (.asked r) (fun h => nomatch h)⟩
  | frame f inner answer next _ ih2 ih3 =>
    intro s
    have h1 : ∀ cb : Nat → State φ σ τ ρ → State φ σ τ ρ × Bool, ∃ new, (receive env f cb (exec env answer) s).1.trace = s.trace ++ new ∧
        Ends (receive env f cb (exec env answer) s).2 new := by
      intro cb
      unfold receive
      simp only
      generalize env.reassemble (emit (.received f) s).reassembly f = q
      obtain ⟨st, o⟩ := q
      cases o with
      | none => exact ⟨[.received f], rfl, by simp [Ends]⟩
      | some t =>
        have hu : (emit (.transfer t) { emit (.received f) s with reassembly := st }).trace = s.trace ++ [.received f, .transfer t] := by simp [emit]
        simp only
        generalize emit (.transfer t) { emit (.received f) s with reassembly := st } = u at *
        split
        · unfold respond
          split
          · exact ⟨_, hu, by simp [Ends]⟩
          · rename_i r _
            obtain ⟨new, h3, h4⟩ := ih2 (emit (.answered r t) { u with timers := u.timers.erase r })
            generalize exec env answer (emit (.answered r t) { u with timers := u.timers.erase r }) = q at *
            obtain ⟨q, b⟩ := q
            have h5 : q.trace = s.trace ++ (.received f :: .transfer t :: .answered r t :: new) := by
              have : q.trace = (emit (.answered r t) { u with timers := u.timers.erase r }).trace ++ new := h3
              rw [this]; simp [emit, hu]
            have h6 : Ends b (.received f :: .transfer t :: .answered r t :: new) :=
              ((Ends.cons h4 (.answered r t) (fun h => nomatch h)).cons (.transfer t) (fun h => nomatch h)).cons (.received f) (fun h => nomatch h)
            cases b with
            | true => exact ⟨_, h5, h6⟩
            | false =>
              dsimp only
              split
              · refine ⟨_ ++ [.returned r], ?_, Ends.append h6 (b := false) (by simp [Ends])⟩
                simp [emit, h5]
              · refine ⟨_ ++ [.returned r, .keyError], ?_, Ends.append h6 (b := true) ⟨[.returned r], rfl, by simp⟩⟩
                simp [emit, h5]
        · exact ⟨_, by rw [hn]; exact hu, by simp [Ends]⟩
    obtain ⟨new, h2, h3⟩ := h1 fun n => exec env (inner n)
    simp only [exec]
    generalize receive env f (fun n => exec env (inner n)) (exec env answer) s = q at *
    obtain ⟨q, b⟩ := q
    cases b with
    | true => exact ⟨new, h2, h3⟩
    | false =>
      obtain ⟨more, h4, h5⟩ := ih3 q
      have h2' : q.trace = s.trace ++ new := h2
      exact ⟨new ++ more, by rw [h4, h2', List.append_assoc], Ends.append h3 h5⟩
  | timeout r inner next ih1 ih2 =>
    intro s
    simp only [exec]
    split
    · obtain ⟨new, h2, h3⟩ := ih1 (expire r s)
      have h4 : (exec env inner (expire r s)).1.trace = s.trace ++ (.expired r :: new) := by rw [h2]; simp [expire, emit]
      have h5 := Ends.cons h3 (.expired r) (fun h => nomatch h)
      generalize exec env inner (expire r s) = q at *
      obtain ⟨q, b⟩ := q
      cases b with
      | true => exact ⟨_, h4, h5⟩
      | false =>
        obtain ⟨more, h6, h7⟩ := ih2 q
        have h4' : q.trace = s.trace ++ (.expired r :: new) := h4
        exact ⟨(.expired r :: new) ++ more, by rw [h6, h4', List.append_assoc], Ends.append h5 h7⟩
    · exact ih2 s

/-- What one expects: every handler is called for the transfers in the order of their arrival, the callback of a request is called at most once, and
`spin` raises nothing. -/
def C137_statement : Prop := ∀ (φ σ τ ρ : Type) (_ : DecidableEq ρ) (env : Env φ σ τ ρ) (st : σ) (xs : List (Script φ ρ)),
    let s := run env { reassembly := st } xs
    (asked s.trace).Nodup →
      (∀ n, calls n s.trace = (transfers s.trace).filter (wanted env n)) ∧ (∀ r, (answersTo r s.trace).length ≤ 1) ∧ .keyError ∉ s.trace

/-- Every frame is a transfer; numbers from 100 on are responses. Two handlers for everything. -/
def sample : Env Nat Unit Nat Nat where
  reassemble := fun _ f => ((), some f)
  toUs := fun t => decide (100 ≤ t)
  answers := fun t r => t % 100 == r
  handlers := [fun _ => true, fun _ => true]

/-- One frame; nothing more happens. -/
def one (f : Nat) (next : Script Nat Nat) : Script Nat Nat := .frame f (fun _ => .done) .done next

/-- The first handler calls `spin` while it handles message 1, and message 2 arrives: the second handler gets 2 before 1. -/
theorem C137_order_counterexample :
    let s := run sample { reassembly := () } [.frame 1 (fun n => if n = 0 then one 2 .done else .done) .done .done]
    transfers s.trace = [1, 2] ∧ calls 0 s.trace = [1, 2] ∧ calls 1 s.trace = [2, 1] := by decide +kernel

/-- The callback of request 7 calls `spin`, and the response arrives again: the callback is called again, and `spin` raises `KeyError`. -/
theorem C137_twice : let s := run sample { reassembly := () } [.request 7 (.frame 107 (fun _ => .done) (one 207 .done) (one 1 .done))]
    answersTo 7 s.trace = [107, 207] ∧ .keyError ∈ s.trace ∧ (asked s.trace).Nodup := by decide +kernel

/-- The same without handlers: the exception leaves, and the frame after it is not received. -/
example : let q := exec { sample with handlers := [] } (.request 7 (.frame 107 (fun _ => .done) (one 207 .done) (one 1 .done))) { reassembly := () }
    q.2 = true ∧ frames q.1.trace = [107, 207] ∧ q.1.trace.getLast? = some .keyError := by decide +kernel

theorem C137_counterexample : ¬ C137_statement := by
  intro h
  have := (h Nat Unit Nat Nat inferInstance sample () [.request 7 (.frame 107 (fun _ => .done) (one 207 .done) (one 1 .done))] (by decide +kernel)).2.2
  exact this (by decide +kernel)

/-- Three levels, a timeout on the second, a new request on the third that is answered later. -/
example : let s := run sample { reassembly := () } [.request 1 (.request 2 (.frame 101 (fun _ => .done)
      (.timeout 2 (one 5 (.request 3 .done)) .done) (one 103 .done)))]
    s.trace = [.asked 1, .asked 2, .received 101, .transfer 101, .answered 1 101, .expired 2, .received 5, .transfer 5, .called 0 5, .called 1 5,
      .asked 3, .returned 1, .received 103, .transfer 103, .answered 3 103, .returned 3] ∧ s.outstanding = [] ∧ s.timers = [] := by decide +kernel

/-- The hypotheses of `C137_single_partial` and `C137_order_partial`. -/
example : let s := run sample { reassembly := () } [.request 1 (.request 2 (.frame 101 (fun _ => .done) (one 102 .done) .done))]
    (asked s.trace).Nodup ∧ (transfers s.trace) = [101, 102] ∧ s.outstanding = [] := by decide +kernel

example : Calm 1 (.frame 1 (fun n => if n = 0 then .request 4 .done else one 2 .done) .done .done : Script Nat Nat) :=
  ⟨fun i hi => by rw [show i = 0 by omega]; trivial, fun i => by
    simp only
    split
    · trivial
    · exact ⟨fun _ _ => trivial, fun _ => trivial, trivial, trivial⟩, trivial, trivial⟩

end Reentrant
end Dronecan
