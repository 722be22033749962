import Verif.Model.RequestThreads
import Verif.Proofs.Dict

/-!
# Requests made by other threads than the one that runs `spin` (C165)
-/

namespace Dronecan
namespace RequestThreads

/-! ## Specification -/

/-- How often the callback of a call has been called. -/
def times (n : Nat) (trace : List Ev) : Nat := trace.countP fun e => match e with | .called m _ => m = n | _ => false

/-- A response to a request that has been sent is given to its callback, if there is no other request like it: when the loop over the keys is over. -/
def C165_statement : Prop := ∀ (prog : Nat → List Req) (schedule more : List Step) (k : Key) (r : Resp) (n : Nat),
  .sent k ∈ (run prog schedule).trace → (run prog schedule).trace.countP (fun e => match e with | .sent _ => true | _ => false) = 1 →
  (run prog schedule).spin = .idle → r.answers k = true → .returned n ∈ (run prog (schedule ++ .arrive r :: more)).trace →
  (∀ m, .timeout m ∉ schedule ++ more) → (run prog (schedule ++ .arrive r :: more)).spin = .idle →
  .called n (some r) ∈ (run prog (schedule ++ .arrive r :: more)).trace

/-- `spin` raises nothing. -/
def C165_quiet_statement : Prop := ∀ (prog : Nat → List Req) (schedule : List Step) (e : Err), .raised e ∉ (run prog schedule).trace

/-- No callback is called twice. -/
def C165_once_statement : Prop := ∀ (prog : Nat → List Req) (schedule : List Step) (n : Nat), times n (run prog schedule).trace ≤ 1

/-- Thread `i` has made the timer of call `n` and has not returned from `request`. -/
def Busy (s : State) (i n : Nat) : Prop := ∃ k, (s.threads i).phase = .timed n k ∨ (s.threads i).phase = .listed n k

/-- No thread is delayed in `request` so long that the timer of its request runs. -/
def Prompt (prog : Nat → List Req) (schedule : List Step) : Prop := ∀ pre n post, schedule = pre ++ .timeout n :: post →
  ∀ i, ¬ Busy (run prog pre) i n

/-! ## What holds in all schedules -/

/-- The number of the call a thread that stands between setting the timer and the second insertion is making. -/
def holds : Phase → Option Nat
  | .timed n _ => some n
  | .listed n _ => some n
  | _ => none

theorem busy_iff (s : State) (i n : Nat) : Busy s i n ↔ holds (s.threads i).phase = some n := by
  simp only [Busy]
  cases (s.threads i).phase <;> simp [holds]

/-- What holds in every state that a schedule reaches. -/
structure Inv (s : State) : Prop where
  okR : Dict.Ok s.requests
  okC : Dict.Ok s.callbacks
  cb : ∀ k n, s.callbacks.get? k = some n → s.calls[n]? = some k ∧ ∀ i, holds (s.threads i).phase ≠ some n
  timed : ∀ i n k, (s.threads i).phase = .timed n k → s.calls[n]? = some k
  listed : ∀ i n k, (s.threads i).phase = .listed n k → s.calls[n]? = some k
  distinct : ∀ i j n, holds (s.threads i).phase = some n → holds (s.threads j).phase = some n → i = j
  timers : ∀ n ∈ s.timers, n < s.calls.length
  found : ∀ r k, s.spin = .found r k → r.answers k = true
  expired : ∀ n k, s.spin = .expired n k → s.calls[n]? = some k
  expiring : ∀ n k, s.spin = .expiring n k → s.calls[n]? = some k
  fits : ∀ n r, .called n (some r) ∈ s.trace → ∃ k, s.calls[n]? = some k ∧ r.answers k = true
  known : ∀ n r, .called n r ∈ s.trace → n < s.calls.length
  live : ∀ n, n < s.calls.length → n ∈ s.timers ∨ (∃ k, s.spin = .expired n k ∨ s.spin = .expiring n k) ∨ ∃ r, .called n r ∈ s.trace

theorem inv_start (prog : Nat → List Req) : Inv (start prog) := by
  constructor <;> simp [start, Dict.get?, holds, Dict.Ok, Dict.keys]

theorem inv_thread (i : Nat) (s : State) (h : Inv s) : Inv (threadStep i s) := by
  obtain ⟨h1, h2, h3, h4, h5, h6, h7, h8, h9, h10, h11, h12, h13⟩ := h
  simp only [threadStep]
  split
  · split
    · constructor <;> assumption
    · constructor <;> simp only [put] at * <;> grind [holds]
  · constructor <;> simp only [put, go] at * <;> grind [holds]
  · constructor <;> simp only [put, go, emit] at * <;> grind [holds]
  · have hf : ∀ j, holds (s.threads j).phase ≠ some s.calls.length := by
      intro j e
      cases hp : (s.threads j).phase <;> grind [holds]
    constructor <;> simp only [put, go, emit] at * <;> grind [holds]
  · constructor <;> simp only [put, go, emit] at * <;> grind [holds, Dict.ok_set]
  · constructor <;> simp only [put, go, emit] at * <;> grind [holds, Dict.ok_set, Dict.get?_set]

theorem inv_spin (s : State) (h : Inv s) : Inv (spinStep s) := by
  obtain ⟨h1, h2, h3, h4, h5, h6, h7, h8, h9, h10, h11, h12, h13⟩ := h
  simp only [spinStep]
  split
  · constructor <;> assumption
  · split
    · constructor <;> simp only [emit] at * <;> grind
    · split
      · constructor <;> simp only [emit] at * <;> grind
      · split <;> constructor <;> simp only [emit] at * <;> grind
  · split
    · constructor <;> simp only [emit] at * <;> grind
    · constructor <;> simp only [emit] at * <;> grind
  · constructor <;> simp only [emit] at * <;> grind [Dict.ok_del]
  · constructor <;> simp only [emit] at * <;> grind [Dict.ok_del, Dict.get?_del]
  · constructor <;> simp only [emit] at * <;> grind [Dict.ok_del]
  · constructor <;> simp only [emit] at * <;> grind [Dict.ok_del, Dict.get?_del]

theorem inv_step (s : State) (st : Step) (h : Inv s) : Inv (step s st) := by
  cases st with
  | thread i => exact inv_thread i s h
  | spin => exact inv_spin s h
  | timeout n =>
    obtain ⟨h1, h2, h3, h4, h5, h6, h7, h8, h9, h10, h11, h12, h13⟩ := h
    simp only [step]
    split
    · split
      · constructor <;> grind
      · constructor <;> assumption
    · constructor <;> assumption
  | arrive r =>
    obtain ⟨h1, h2, h3, h4, h5, h6, h7, h8, h9, h10, h11, h12, h13⟩ := h
    simp only [step]
    split
    · constructor <;> grind
    · constructor <;> assumption

theorem inv_run (prog : Nat → List Req) (schedule : List Step) : Inv (run prog schedule) := by
  simp only [run]
  generalize hs : start prog = s
  have h : Inv s := hs ▸ inv_start prog
  clear hs
  induction schedule generalizing s with
  | nil => exact h
  | cons st rest ih => exact ih _ (inv_step s st h)

/-- **C165**: however the threads interleave, a callback that is given a response is given one that answers its own request. -/
theorem C165_answer (prog : Nat → List Req) (schedule : List Step) (n : Nat) (r : Resp) (h : .called n (some r) ∈ (run prog schedule).trace) :
    ∃ k, (run prog schedule).calls[n]? = some k ∧ k.1 = r.svc ∧ k.2.2 = r.tid := by
  obtain ⟨k, h1, h2⟩ := (inv_run prog schedule).fits n r h
  refine ⟨k, h1, ?_⟩
  simpa [Resp.answers] using h2

/-- **C165**: no callback is forgotten: when no timer is left and `spin` is not within a callback, all have been called. -/
theorem C165_none_forgotten (prog : Nat → List Req) (schedule : List Step) (ht : (run prog schedule).timers = [])
    (hs : (run prog schedule).spin = .idle) (n : Nat) (hn : n < (run prog schedule).calls.length) : ∃ r, .called n r ∈ (run prog schedule).trace := by
  have := (inv_run prog schedule).live n hn
  grind

/-! ## At most once -/

/-- What holds as well if no thread is delayed as long as its timer. -/
structure Once (s : State) : Prop where
  timers : ∀ n r, .called n r ∈ s.trace → n ∉ s.timers
  expired : ∀ n r k, .called n r ∈ s.trace → s.spin ≠ .expired n k
  expiring : ∀ n r k, .called n r ∈ s.trace → s.spin ≠ .expiring n k
  idle : ∀ n r i, .called n r ∈ s.trace → holds (s.threads i).phase ≠ some n
  cb : ∀ n r k, .called n r ∈ s.trace → s.callbacks.get? k = some n → s.spin = .answered k ∨ s.spin = .cleared k
  expired_idle : ∀ n k i, s.spin = .expired n k → holds (s.threads i).phase ≠ some n
  expiring_idle : ∀ n k i, s.spin = .expiring n k → holds (s.threads i).phase ≠ some n
  expired_timers : ∀ n k, s.spin = .expired n k → n ∉ s.timers
  expiring_timers : ∀ n k, s.spin = .expiring n k → n ∉ s.timers
  times : ∀ n, times n s.trace ≤ 1

theorem times_append (n : Nat) (t : List Ev) (e : Ev) : times n (t ++ [e]) = times n t + (match e with | .called m _ => if m = n then 1 else 0 | _ => 0) := by
  cases e <;> simp [times, List.countP_append, List.countP_cons]

theorem times_zero (n : Nat) (t : List Ev) (h : ∀ r, .called n r ∉ t) : times n t = 0 := by
  simp only [times, List.countP_eq_zero]
  intro e he
  cases e <;> simp
  rename_i m r
  intro hm
  exact h r (hm ▸ he)

theorem once_start (prog : Nat → List Req) : Once (start prog) := by
  constructor <;> simp [start, RequestThreads.times]

theorem once_thread (i : Nat) (s : State) (v : Inv s) (h : Once s) : Once (threadStep i s) := by
  obtain ⟨h1, h2, h3, h4, h5, h6, h7, h8, h9, h10⟩ := h
  have v3 := v.cb
  have v4 := v.timed
  have v5 := v.listed
  have v6 := v.distinct
  have v9 := v.expired
  have v10 := v.expiring
  have v12 := v.known
  clear v
  simp only [threadStep]
  split
  · split
    · constructor <;> assumption
    · constructor <;> simp only [put] at * <;> grind [holds]
  · constructor <;> simp only [put, go] at * <;> grind [holds]
  · constructor <;> simp only [put, go, emit] at * <;> grind [holds, times_append]
  · constructor <;> simp only [put, go, emit] at * <;> grind [holds]
  · constructor <;> simp only [put, go, emit] at * <;> grind [holds]
  · constructor <;> simp only [put, go, emit] at * <;> grind [holds, Dict.get?_set, times_append]

theorem once_spin (s : State) (v : Inv s) (h : Once s) : Once (spinStep s) := by
  obtain ⟨h1, h2, h3, h4, h5, h6, h7, h8, h9, h10⟩ := h
  have v2 := v.okC
  have v3 := v.cb
  have v10 := v.expiring
  clear v
  simp only [spinStep]
  split
  · constructor <;> assumption
  · split
    · constructor <;> simp only [emit] at * <;> grind [times_append]
    · split
      · constructor <;> simp only [emit] at * <;> grind
      · split <;> constructor <;> simp only [emit] at * <;> grind
  · split
    · constructor <;> simp only [emit] at * <;> grind [times_append]
    · constructor <;> simp only [emit] at * <;> grind [times_append, times_zero]
  · constructor <;> simp only [emit] at * <;> grind
  · constructor <;> simp only [emit] at * <;> grind [Dict.get?_del]
  · constructor <;> simp only [emit] at * <;> grind
  · constructor <;> simp only [emit] at * <;> grind [Dict.get?_del, times_append, times_zero]

theorem once_step (s : State) (st : Step) (v : Inv s) (h : Once s) (hp : ∀ n, st = .timeout n → ∀ i, ¬ Busy s i n) : Once (step s st) := by
  cases st with
  | thread i => exact once_thread i s v h
  | spin => exact once_spin s v h
  | timeout n =>
    have hq : ∀ i, holds (s.threads i).phase ≠ some n := fun i e => hp n rfl i ((busy_iff s i n).2 e)
    obtain ⟨h1, h2, h3, h4, h5, h6, h7, h8, h9, h10⟩ := h
    simp only [step]
    split
    · split
      · constructor <;> grind
      · constructor <;> assumption
    · constructor <;> assumption
  | arrive r =>
    obtain ⟨h1, h2, h3, h4, h5, h6, h7, h8, h9, h10⟩ := h
    simp only [step]
    split
    · constructor <;> grind
    · constructor <;> assumption

theorem once_run (schedule : List Step) (s : State) (v : Inv s) (h : Once s)
    (hp : ∀ pre n post, schedule = pre ++ .timeout n :: post → ∀ i, ¬ Busy (pre.foldl step s) i n) : Once (schedule.foldl step s) := by
  induction schedule generalizing s with
  | nil => exact h
  | cons st rest ih =>
    refine ih _ (inv_step s st v) (once_step s st v h ?_) ?_
    · intro n e
      exact hp [] n rest (by rw [e]; rfl)
    · intro pre n post e
      exact hp (st :: pre) n post (by rw [e]; rfl)

/-- **C165**: if no thread is delayed in `request` until its timer runs, no callback is called twice. -/
theorem C165_once_partial (prog : Nat → List Req) (schedule : List Step) (h : Prompt prog schedule) (n : Nat) :
    times n (run prog schedule).trace ≤ 1 :=
  (once_run schedule _ (inv_start prog) (once_start prog) h).times n

/-! ## Transfer IDs -/

/-- **C165**: if a thread is not interrupted between reading and incrementing the transfer ID, the next thread that begins a request to the same service gets the next
one of the 32. -/
theorem C165_next_id (s : State) (i j : Nat) (r r' : Req) (rest rest' : List Req) (hi : s.threads i = ⟨r :: rest, .idle⟩) (hj : s.threads j = ⟨r' :: rest', .idle⟩)
    (hne : j ≠ i) (hsvc : r'.svc = r.svc) : ∃ tid tid', ((step (step s (.thread i)) (.thread i)).threads i).phase = .ready r tid ∧
      ((step (step (step s (.thread i)) (.thread i)) (.thread j)).threads j).phase = .got r' tid' ∧ tid' = (tid + 1) % 32 := by
  refine ⟨(s.ids.get? r.svc).getD 0, ((s.ids.get? r.svc).getD 0 + 1) % 32, ?_, ?_, rfl⟩
  · simp [step, threadStep, hi, put, go]
  · simp only [step, threadStep, hi, put, go, if_pos, if_neg hne, hj, hsvc, Dict.get?_set_self, Option.getD_some]
    have := Nat.and_two_pow_sub_one_eq_mod ((s.ids.get? r.svc).getD 0 + 1) 5
    simp only [show (2 ^ 5 - 1 : Nat) = 31 from rfl, show (2 ^ 5 : Nat) = 32 from rfl] at this
    rw [this]

/-! ## Nothing raised -/

/-- The two insertions (node.py:495-496) and what `spin` does with a response or a timer exclude each other, as with a lock: no thread inserts while `spin` is
at work, and no response is looked at between the two insertions of a thread. -/
def Apart (prog : Nat → List Req) (schedule : List Step) : Prop := ∀ pre st post, schedule = pre ++ st :: post →
  match st with
  | .thread i => (∃ n, Busy (run prog pre) i n) → (run prog pre).spin = .idle
  | .arrive _ => ∀ i n k, ((run prog pre).threads i).phase ≠ .listed n k
  | _ => True

structure Quiet (s : State) : Prop where
  both : ∀ k, s.requests.get? k = some () → (s.callbacks.get? k).isSome ∨ ∃ i n, (s.threads i).phase = .listed n k
  cleared : ∀ k, s.spin = .cleared k → s.requests.get? k = none
  expiring : ∀ n k, s.spin = .expiring n k → s.requests.get? k = none
  looking : ∀ r size pos, s.spin = .looking r size pos → s.requests.length = size ∧ ∀ i n k, (s.threads i).phase ≠ .listed n k
  found : ∀ r k, s.spin = .found r k → s.requests.get? k = some () ∧ ∀ i n k, (s.threads i).phase ≠ .listed n k
  quiet : ∀ e, .raised e ∉ s.trace

theorem quiet_start (prog : Nat → List Req) : Quiet (start prog) := by
  constructor <;> simp [start, Dict.get?]

theorem quiet_thread (i : Nat) (s : State) (h : Quiet s) (ha : (∃ n, Busy s i n) → s.spin = .idle) : Quiet (threadStep i s) := by
  have ha' : ∀ n, holds (s.threads i).phase = some n → s.spin = .idle := fun n e => ha ⟨n, (busy_iff s i n).2 e⟩
  clear ha
  obtain ⟨h1, h2, h3, h4, h5, h6⟩ := h
  simp only [threadStep]
  split
  · split
    · constructor <;> assumption
    · constructor <;> simp only [put] at * <;> grind
  · constructor <;> simp only [put, go] at * <;> grind
  · constructor <;> simp only [put, go, emit] at * <;> grind
  · constructor <;> simp only [put, go, emit] at * <;> grind
  · rename_i n k hp
    have hi : s.spin = .idle := ha' n (by rw [hp]; rfl)
    refine ⟨?_, ?_, ?_, ?_, ?_, h6⟩
    · intro k' hk'
      by_cases e : k = k'
      · exact Or.inr ⟨i, n, by simp [go, put, e]⟩
      · rw [show (go i (.listed n k) { s with requests := s.requests.set k () }).requests = s.requests.set k () from rfl, Dict.get?_set, if_neg e] at hk'
        refine (h1 k' hk').imp id (fun ⟨j, n', hj⟩ => ⟨j, n', ?_⟩)
        have : j ≠ i := by rintro rfl; rw [hp] at hj; exact nomatch hj
        simpa [go, put, this] using hj
    all_goals simp [go, hi]
  · rename_i n k hp
    have hi : s.spin = .idle := ha' n (by rw [hp]; rfl)
    refine ⟨?_, ?_, ?_, ?_, ?_, ?_⟩
    · intro k' hk'
      by_cases e : k = k'
      · exact Or.inl (by simp [go, emit, Dict.get?_set, e])
      · refine (h1 k' hk').imp (fun h => ?_) (fun ⟨j, n', hj⟩ => ⟨j, n', ?_⟩)
        · simpa [go, emit, Dict.get?_set, e] using h
        · have : j ≠ i := by
            rintro rfl
            rw [hp] at hj
            exact e (Phase.listed.inj hj).2
          simpa [go, emit, put, this] using hj
    all_goals simp [go, emit, hi]
    exact h6

theorem quiet_spin (s : State) (v : Inv s) (h : Quiet s) : Quiet (spinStep s) := by
  have v1 := v.okR
  have v2 := v.okC
  clear v
  obtain ⟨h1, h2, h3, h4, h5, h6⟩ := h
  simp only [spinStep]
  split
  · constructor <;> assumption
  · split
    · constructor <;> simp only [emit] at * <;> grind
    · split
      · constructor <;> simp only [emit] at * <;> grind
      · rename_i k hk
        have hm : s.requests.get? k = some () := by
          have := (Dict.mem_keys_iff s.requests k).1 (List.mem_of_getElem? hk)
          revert this
          cases s.requests.get? k <;> simp
        split <;> constructor <;> simp only [emit] at * <;> grind
  · split
    · constructor <;> simp only [emit] at * <;> grind
    · constructor <;> simp only [emit] at * <;> grind
  · constructor <;> simp only [emit] at * <;> grind [Dict.get?_del]
  · constructor <;> simp only [emit] at * <;> grind [Dict.get?_del]
  · constructor <;> simp only [emit] at * <;> grind [Dict.get?_del]
  · constructor <;> simp only [emit] at * <;> grind [Dict.get?_del]

theorem quiet_step (s : State) (st : Step) (v : Inv s) (h : Quiet s)
    (ha : match st with
      | .thread i => (∃ n, Busy s i n) → s.spin = .idle
      | .arrive _ => ∀ i n k, (s.threads i).phase ≠ .listed n k
      | _ => True) : Quiet (step s st) := by
  cases st with
  | thread i => exact quiet_thread i s h ha
  | spin => exact quiet_spin s v h
  | timeout n =>
    obtain ⟨h1, h2, h3, h4, h5, h6⟩ := h
    simp only [step]
    split
    · split
      · constructor <;> grind
      · constructor <;> assumption
    · constructor <;> assumption
  | arrive r =>
    obtain ⟨h1, h2, h3, h4, h5, h6⟩ := h
    simp only [step]
    split
    · constructor <;> grind
    · constructor <;> assumption

theorem quiet_run (schedule : List Step) (s : State) (v : Inv s) (h : Quiet s)
    (ha : ∀ pre st post, schedule = pre ++ st :: post → match st with
      | .thread i => (∃ n, Busy (pre.foldl step s) i n) → (pre.foldl step s).spin = .idle
      | .arrive _ => ∀ i n k, ((pre.foldl step s).threads i).phase ≠ .listed n k
      | _ => True) : Quiet (schedule.foldl step s) := by
  induction schedule generalizing s with
  | nil => exact h
  | cons st rest ih =>
    refine ih _ (inv_step s st v) (quiet_step s st v h (ha [] st rest rfl)) ?_
    intro pre st' post e
    exact ha (st :: pre) st' post (by rw [e]; rfl)

/-- **C165**: if the two insertions and the work of `spin` exclude each other, `spin` raises nothing. -/
theorem C165_quiet_partial (prog : Nat → List Req) (schedule : List Step) (h : Apart prog schedule) (e : Err) : .raised e ∉ (run prog schedule).trace :=
  (quiet_run schedule _ (inv_start prog) (quiet_start prog) h).quiet e

/-! ## Responses to registered requests -/

theorem look (s : State) (r : Resp) (k : Key) (pos d : Nat) (hs : s.spin = .looking r s.requests.length pos)
    (hk : s.requests.keys[pos + d]? = some k) (ha : r.answers k = true) (hu : ∀ k' ∈ s.requests.keys, r.answers k' = true → k' = k) :
    ∃ m, (List.replicate m Step.spin).foldl step s = { s with spin := .found r k } := by
  induction d generalizing s pos with
  | zero =>
    refine ⟨1, ?_⟩
    simp only [List.replicate, List.foldl_cons, List.foldl_nil, step, spinStep, hs, ne_eq, not_true_eq_false, if_false]
    rw [Nat.add_zero] at hk
    simp [hk, ha]
  | succ d ih =>
    have hlt : pos + (d + 1) < s.requests.keys.length := (List.getElem?_eq_some_iff.1 hk).1
    have hx : s.requests.keys[pos]? = some s.requests.keys[pos] := List.getElem?_eq_getElem (by omega)
    generalize hx' : s.requests.keys[pos] = x at hx
    by_cases he : r.answers x = true
    · have : x = k := hu x (List.mem_of_getElem? hx) he
      refine ⟨1, ?_⟩
      subst this
      simp [step, spinStep, hs, hx, he]
    · obtain ⟨m, hm⟩ := ih { s with spin := .looking r s.requests.length (pos + 1) } (pos + 1) rfl (by rw [← hk]; congr 1; omega) hu
      refine ⟨m + 1, ?_⟩
      rw [List.replicate_succ, List.foldl_cons]
      rw [show step s Step.spin = { s with spin := .looking r s.requests.length (pos + 1) } by simp [step, spinStep, hs, hx, he]]
      exact hm

/-- **C165** (partial: the full statement is `C165_statement`, which is false; here the request is in both dictionaries when the response arrives, no other request
there is answered by it, and `spin` is not interrupted): the response is given to the callback, `spin` raises nothing, the timer is gone and so is the request. -/
theorem C165_partial (prog : Nat → List Req) (schedule : List Step) (r : Resp) (k : Key) (n : Nat) (hs : (run prog schedule).spin = .idle)
    (hr : (run prog schedule).requests.get? k = some ()) (hc : (run prog schedule).callbacks.get? k = some n) (h1 : k.1 = r.svc) (h2 : k.2.2 = r.tid)
    (hu : ∀ k', (run prog schedule).requests.get? k' = some () → k'.1 = r.svc → k'.2.2 = r.tid → k' = k) :
    ∃ m, let s := run prog (schedule ++ .arrive r :: List.replicate m .spin)
      s.trace = (run prog schedule).trace ++ [.called n (some r)] ∧ s.spin = .idle ∧ n ∉ s.timers ∧
      s.requests.get? k = none ∧ s.callbacks.get? k = none ∧
      (∀ k', k' ≠ k → s.requests.get? k' = (run prog schedule).requests.get? k' ∧ s.callbacks.get? k' = (run prog schedule).callbacks.get? k') ∧
      (∀ n', n' ≠ n → (n' ∈ s.timers ↔ n' ∈ (run prog schedule).timers)) := by
  have v := inv_run prog schedule
  simp only [run, List.foldl_append, List.foldl_cons] at *
  generalize hS : schedule.foldl step (start prog) = s at *
  have hk : k ∈ s.requests.keys := (Dict.mem_keys_iff _ _).2 (by rw [hr]; rfl)
  obtain ⟨d, hd⟩ := List.getElem?_of_mem hk
  have ha : r.answers k = true := by simp [Resp.answers, h1, h2]
  obtain ⟨m, hm⟩ := look { s with spin := .looking r s.requests.length 0 } r k 0 d rfl (by rw [Nat.zero_add]; exact hd) ha (by
    intro k' hk' ha'
    have := (Dict.mem_keys_iff s.requests k').1 hk'
    simp only [Resp.answers, Bool.and_eq_true, decide_eq_true_eq] at ha'
    refine hu k' ?_ ha'.1 ha'.2
    revert this
    cases s.requests.get? k' <;> simp)
  refine ⟨m + 3, ?_⟩
  have hq : step s (.arrive r) = { s with spin := .looking r s.requests.length 0 } := by simp only [step, hs]
  rw [hq, ← List.replicate_append_replicate, List.foldl_append, hm]
  simp only [List.replicate, List.foldl_cons, List.foldl_nil, step, spinStep, hc, emit]
  refine ⟨trivial, trivial, ?_, Dict.get?_del_self v.okR k, Dict.get?_del_self v.okC k, ?_, ?_⟩
  · simp
  · intro k' hne
    exact ⟨Dict.get?_del_ne _ (Ne.symm hne), Dict.get?_del_ne _ (Ne.symm hne)⟩
  · intro n' hne
    simp [hne]

/-! ## Counterexamples -/

def one : Nat → List Req := fun i => if i = 0 then [⟨7, 20⟩] else []

/-- The response arrives before the request is registered: it is not given to the callback. -/
theorem C165_counterexample : ¬ C165_statement := by
  intro h
  have := h one [.thread 0, .thread 0, .thread 0] [.spin, .thread 0, .thread 0, .thread 0] (7, 20, 0) ⟨7, 0, 5⟩ 0 (by decide +kernel) (by decide +kernel)
    (by decide +kernel) (by decide +kernel) (by decide +kernel) (by simp) (by decide +kernel)
  exact absurd this (by decide +kernel)

/-- The response arrives when the request is in one of the dictionaries but not yet in the other. -/
theorem C165_quiet_counterexample : ¬ C165_quiet_statement := by
  intro h
  exact h one [.thread 0, .thread 0, .thread 0, .thread 0, .thread 0, .arrive ⟨7, 0, 5⟩, .spin, .spin] .keyError (by decide +kernel)

/-- A request is registered while `spin` goes through the dictionary. -/
theorem C165_resized : .raised .runtimeError ∈ (run one [.thread 0, .thread 0, .thread 0, .thread 0, .arrive ⟨9, 0, 5⟩, .thread 0, .spin]).trace := by
  decide +kernel

/-- The timer runs before the request is registered, then the response arrives. -/
theorem C165_once_counterexample : ¬ C165_once_statement := by
  intro h
  have := h one [.thread 0, .thread 0, .thread 0, .thread 0, .timeout 0, .spin, .spin, .thread 0, .thread 0, .arrive ⟨7, 0, 5⟩, .spin, .spin] 0
  exact absurd this (by decide +kernel)

/-- Two threads, each with a request to the same service; their steps interleave, the responses arrive in the other order. -/
def two : Nat → List Req := fun i => if i < 2 then [⟨7, 20⟩] else []

def mixed : List Step := [.thread 0, .thread 0, .thread 1, .thread 1, .thread 1, .thread 0, .thread 0, .thread 1, .thread 0, .thread 1, .thread 1, .thread 0]

/-- Non-vacuity of `C165_partial`, `C165_answer`, `C165_none_forgotten`, `C165_once_partial`. -/
example : (run two mixed).spin = .idle ∧ (run two mixed).requests.get? (7, 20, 1) = some () ∧ (run two mixed).callbacks.get? (7, 20, 1) = some 1 ∧
    (run two (mixed ++ [.arrive ⟨7, 1, 5⟩, .spin, .spin, .spin, .spin, .spin, .arrive ⟨7, 0, 6⟩, .spin, .spin, .spin, .spin, .spin])).trace =
      (run two mixed).trace ++ [.called 1 (some ⟨7, 1, 5⟩), .called 0 (some ⟨7, 0, 6⟩)] ∧
    (run two (mixed ++ [.arrive ⟨7, 1, 5⟩, .spin, .spin, .spin, .spin, .spin, .timeout 1, .timeout 0, .spin, .spin])).trace =
      (run two mixed).trace ++ [.called 1 (some ⟨7, 1, 5⟩), .called 0 none] ∧
    (run two (mixed ++ [.arrive ⟨7, 1, 5⟩, .spin, .spin, .spin, .spin, .spin, .timeout 1, .timeout 0, .spin, .spin])).timers = [] := by decide +kernel

/-- A check of `Prompt` and `Apart` for schedules in which only threads below `N` take steps. -/
def disciplined (N : Nat) (s : State) : List Step → Bool
  | [] => true
  | st :: rest =>
    (match st with
    | .thread i => decide (i < N) && (decide (holds (s.threads i).phase = none) || decide (s.spin = .idle))
    | .arrive _ => (List.range N).all fun i => match (s.threads i).phase with | .listed _ _ => false | _ => true
    | .timeout n => (List.range N).all fun i => decide (holds (s.threads i).phase ≠ some n)
    | .spin => true) && disciplined N (step s st) rest

theorem idle_step (N : Nat) (s : State) (st : Step) (h : ∀ i, N ≤ i → (s.threads i).phase = .idle) (hs : ∀ i, st = .thread i → i < N) :
    ∀ i, N ≤ i → ((step s st).threads i).phase = .idle := by
  intro i hi
  have h' := h i hi
  cases st with
  | thread j =>
    have : i ≠ j := by have := hs j rfl; omega
    simp only [step, threadStep]
    split <;> (try split) <;> simp [go, emit, put, this, h']
  | timeout n => simp only [step]; split <;> (try split) <;> exact h'
  | arrive r => simp only [step]; split <;> exact h'
  | spin =>
    simp only [step, spinStep]
    split <;> (try split) <;> (try split) <;> (try split) <;> exact h'

theorem disciplined_spec (N : Nat) (schedule : List Step) (s : State) (hi : ∀ i, N ≤ i → (s.threads i).phase = .idle) (h : disciplined N s schedule = true) :
    (∀ pre n post, schedule = pre ++ .timeout n :: post → ∀ i, ¬ Busy (pre.foldl step s) i n) ∧
    (∀ pre st post, schedule = pre ++ st :: post → match st with
      | .thread i => (∃ n, Busy (pre.foldl step s) i n) → (pre.foldl step s).spin = .idle
      | .arrive _ => ∀ i n k, ((pre.foldl step s).threads i).phase ≠ .listed n k
      | _ => True) := by
  induction schedule generalizing s with
  | nil => constructor <;> (intro pre _ post e; cases pre <;> exact nomatch e)
  | cons st rest ih =>
    simp only [disciplined, Bool.and_eq_true] at h
    obtain ⟨h1, h2⟩ := h
    have ih' := ih (step s st) (idle_step N s st hi (by rintro i rfl; simp at h1; exact h1.1)) h2
    constructor
    · intro pre n post e i
      cases pre with
      | nil =>
        obtain ⟨rfl, rfl⟩ := List.cons.inj e
        rw [busy_iff]
        by_cases hN : i < N
        · simp only [List.all_eq_true, List.mem_range, decide_eq_true_eq] at h1
          exact h1 i hN
        · simp [hi i (by omega), holds]
      | cons a pre =>
        obtain ⟨rfl, rfl⟩ := List.cons.inj e
        exact ih'.1 pre n post rfl i
    · intro pre st' post e
      cases pre with
      | nil =>
        obtain ⟨rfl, rfl⟩ := List.cons.inj e
        cases st with
        | thread i =>
          simp only [Bool.and_eq_true, Bool.or_eq_true, decide_eq_true_eq] at h1
          rintro ⟨n, hb⟩
          rw [busy_iff] at hb
          exact h1.2.resolve_left (fun (e : holds (s.threads i).phase = none) => by rw [List.foldl_nil, e] at hb; exact nomatch hb)
        | arrive r =>
          intro i n k hp
          rw [List.foldl_nil] at hp
          by_cases hN : i < N
          · simp only [List.all_eq_true, List.mem_range] at h1
            have := h1 i hN
            rw [hp] at this
            exact nomatch this
          · rw [hi i (by omega)] at hp
            exact nomatch hp
        | timeout n => trivial
        | spin => trivial
      | cons a pre =>
        obtain ⟨rfl, rfl⟩ := List.cons.inj e
        exact ih'.2 pre st' post rfl

/-- Non-vacuity of `C165_once_partial` and `C165_quiet_partial`: requests of two threads, one is answered while the other thread is about to send, the other times
out. -/
def orderly : List Step := [.thread 0, .thread 0, .thread 1, .thread 1, .thread 0, .thread 0, .thread 0, .thread 0, .arrive ⟨7, 0, 5⟩, .spin, .thread 1,
  .spin, .spin, .spin, .thread 1, .thread 1, .thread 1, .timeout 1, .spin, .spin]

example : Prompt two orderly ∧ Apart two orderly ∧
    (run two orderly).trace = [.sent (7, 20, 0), .returned 0, .sent (7, 20, 1), .called 0 (some ⟨7, 0, 5⟩), .returned 1, .called 1 none] := by
  have h := disciplined_spec 2 orderly (start two) (fun _ _ => rfl) (by decide +kernel)
  exact ⟨h.1, h.2, by decide +kernel⟩

/-- Two threads that read the same transfer ID: both requests have the same key, so only one of them is registered in the end. -/
theorem C165_same_transfer_id : (run two [.thread 0, .thread 1, .thread 0, .thread 1, .thread 0, .thread 1]).trace = [.sent (7, 20, 0), .sent (7, 20, 0)] := by
  decide +kernel

end RequestThreads
end Dronecan
