import Verif.Model.MonitorThreads
import Verif.Proofs.Dict

/-!
# A node monitor that other threads use than the one that runs `spin` (C168)
-/

namespace Dronecan
namespace MonitorThreads

/-! ## Specification -/

/-- How often an entry has been reported to be offline. -/
def times (e : Nat) (trace : List Ev) : Nat := trace.countP fun x => match x with | .offline _ e' _ _ => e' = e | _ => false

/-- `spin` raises nothing. -/
def C168_quiet_statement : Prop := ∀ (T : Int) (schedule : List Step) (x : Err), 0 < T → .raised x ∉ (run T schedule).trace

/-- No entry is reported to be offline twice. -/
def C168_once_statement : Prop := ∀ (T : Int) (schedule : List Step) (e : Nat), 0 < T → times e (run T schedule).trace ≤ 1

/-- A node is reported to be offline only when its last message is older than `T`. -/
def C168_offline_statement : Prop := ∀ (T : Int) (schedule : List Step) (nid e : Nat) (ts : Option Int) (now : Int), 0 < T →
  .offline nid e ts now ∈ (run T schedule).trace → ∃ t, ts = some t ∧ t + T < now

/-- `get` raises nothing but `KeyError`. -/
def C168_failed_statement : Prop := ∀ (T : Int) (schedule : List Step) (i nid : Nat) (x : Err), 0 < T →
  .failed i nid x ∈ (run T schedule).trace → x = .keyError

/-- An entry that `get` returns is filled in. -/
def C168_filled_statement : Prop := ∀ (T : Int) (schedule : List Step) (i nid e : Nat) (ts : Option Int), 0 < T →
  .returned i nid e ts ∈ (run T schedule).trace → ts ≠ none

/-- No two threads are in the monitor at the same time. -/
def Locked (s : State) : Prop := ∀ i, s.threads i ≠ none → s.spin = .idle ∧ ∀ j, s.threads j ≠ none → j = i

/-- No thread that has read the time of a node's last message finds it too old. -/
structure Fresh (T : Int) (s : State) : Prop where
  threads : ∀ i nid ts, s.threads i = some (nid, .read ts) → s.now ≤ ts + T
  get : ∀ m ts, s.spin = .get m (.read ts) → s.now ≤ ts + T
  held : ∀ nid e ts rest, s.spin = .held nid e ts rest → s.now ≤ ts + T

/-! ## What holds in all schedules -/

def pending : Spin → List (Nat × Nat)
  | .sweep r => r
  | .held n e _ r => (n, e) :: r
  | .drop n e r => (n, e) :: r
  | .tell n e r => (n, e) :: r
  | _ => []

def updating : Spin → Option Nat
  | .update _ e _ => some e
  | _ => none

structure Inv (s : State) : Prop where
  ok : Dict.Ok s.registry
  owned : ∀ nid e, s.registry.get? nid = some e → owner s e = some nid
  filled : ∀ nid e, s.registry.get? nid = some e → stamp s e = none → updating s.spin = some e
  update : ∀ m e f, s.spin = .update m e f → owner s e = some m.src
  report : ∀ m e f, s.spin = .report m e f → owner s e = some m.src
  pend : ∀ nid e, (nid, e) ∈ pending s.spin → owner s e = some nid ∧ stamp s e ≠ none
  returned : ∀ i nid e ts, .returned i nid e ts ∈ s.trace → owner s e = some nid
  offline : ∀ nid e ts now, .offline nid e ts now ∈ s.trace → owner s e = some nid
  new : ∀ nid e, .new nid e ∈ s.trace → owner s e = some nid ∧ stamp s e ≠ none
  info : ∀ nid e, .info nid e ∈ s.trace → owner s e = some nid ∧ stamp s e ≠ none
  reported : ∀ m e f, s.spin = .report m e f → stamp s e ≠ none
  raised : ∀ x, .raised x ∈ s.trace → x = .keyError
  failed : ∀ i nid x, .failed i nid x ∈ s.trace → x = .keyError ∨ x = .typeError

theorem inv_start : Inv {} := by
  constructor <;> simp [Dict.get?, Dict.Ok, Dict.keys, pending]

theorem inv_effect (T : Int) (nid : Nat) (l : Look) (s : State) (h : Inv s) : Inv (effect nid s l) := by
  obtain ⟨h1, h2, h3, h4, h5, h6, h7, h8, h9, h10, h11, h12, h13⟩ := h
  cases l with
  | stale =>
    simp only [effect]
    split
    · constructor <;> assumption
    · constructor <;> simp only [emit, stamp, owner] at * <;> grind
  | delete => constructor <;> simp only [effect, stamp, owner] at * <;> grind [Dict.ok_del, Dict.get?_del]
  | _ => constructor <;> assumption

@[simp] theorem effect_spin (nid : Nat) (l : Look) (s : State) : (effect nid s l).spin = s.spin := by
  cases l <;> simp only [effect]; split <;> rfl
@[simp] theorem effect_threads (nid : Nat) (l : Look) (s : State) : (effect nid s l).threads = s.threads := by
  cases l <;> simp only [effect]; split <;> rfl
@[simp] theorem effect_now (nid : Nat) (l : Look) (s : State) : (effect nid s l).now = s.now := by
  cases l <;> simp only [effect]; split <;> rfl
@[simp] theorem effect_entries (nid : Nat) (l : Look) (s : State) : (effect nid s l).entries = s.entries := by
  cases l <;> simp only [effect]; split <;> rfl

theorem outcome_err (T : Int) (nid : Nat) (s : State) (l : Look) (x : Err) (h : outcome T nid s l = .err x) :
    x = .keyError ∨ (x = .typeError ∧ ∃ e, s.registry.get? nid = some e ∧ stamp s e = none) := by
  cases l <;> simp only [outcome] at h <;> grind

theorem outcome_ret (T : Int) (nid : Nat) (s : State) (l : Look) (e : Nat) (h : outcome T nid s l = .ret e) :
    l = .last ∧ s.registry.get? nid = some e := by
  cases l <;> simp only [outcome] at h <;> grind

theorem inv_thread (T : Int) (i : Nat) (s : State) (h : Inv s) : Inv (threadStep T i s) := by
  simp only [threadStep]
  split
  · exact h
  · rename_i nid l hl
    have hf := inv_effect T nid l s h
    have ho := outcome_err T nid s l
    have hr := outcome_ret T nid s l
    have g2 := h.owned
    have g3 := effect_entries nid l s
    generalize effect nid s l = s' at *
    obtain ⟨h1, h2, h3, h4, h5, h6, h7, h8, h9, h10, h11, h12, h13⟩ := hf
    split <;> constructor <;> simp only [emit, stamp, owner] at * <;> grind

set_option maxHeartbeats 1000000 in
theorem inv_spin (T : Int) (s : State) (h : Inv s) : Inv (spinStep T s) := by
  simp only [spinStep]
  split
  · exact h
  · rename_i m l hl
    have hf := inv_effect T m.src l s h
    have ho := outcome_err T m.src s l
    have hr := outcome_ret T m.src s l
    have g2 := h.owned
    have g4 := h.filled
    have g3 := effect_entries m.src l s
    have g5 := effect_spin m.src l s
    generalize effect m.src s l = s' at *
    obtain ⟨h1, h2, h3, h4, h5, h6, h7, h8, h9, h10, h11, h12, h13⟩ := hf
    split <;> constructor <;> simp only [emit, stamp, owner] at * <;> grind [updating, pending]
  all_goals obtain ⟨h1, h2, h3, h4, h5, h6, h7, h8, h9, h10, h11, h12, h13⟩ := h
  · constructor <;> simp only [emit, stamp, owner] at * <;> grind [updating, pending, Dict.ok_set, Dict.get?_set]
  · constructor <;> simp only [emit, stamp, owner] at * <;> grind [updating, pending, List.getElem?_modify]
  · split
    · constructor <;> simp only [emit, stamp, owner] at * <;> grind [updating, pending]
    · split <;> constructor <;> simp only [emit, stamp, owner] at * <;> grind [updating, pending]
  · constructor <;> simp only [emit, stamp, owner] at * <;> grind [updating, pending]
  · split <;> constructor <;> simp only [emit, stamp, owner] at * <;> grind [updating, pending]
  · split <;> constructor <;> simp only [emit, stamp, owner] at * <;> grind [updating, pending]
  · split <;> constructor <;> simp only [emit, stamp, owner] at * <;> grind [updating, pending, Dict.ok_del, Dict.get?_del]
  · constructor <;> simp only [emit, stamp, owner] at * <;> grind [updating, pending]

theorem inv_step (T : Int) (s : State) (st : Step) (h : Inv s) : Inv (step T s st) := by
  have hm := fun k v => Dict.mem_iff_get? h.ok k v
  cases st with
  | thread i => exact inv_thread T i s h
  | spin => exact inv_spin T s h
  | _ =>
    obtain ⟨h1, h2, h3, h4, h5, h6, h7, h8, h9, h10, h11, h12, h13⟩ := h
    simp only [step]
    try split
    all_goals constructor <;> simp only [emit, stamp, owner] at * <;> grind [updating, pending]

theorem inv_run (T : Int) (schedule : List Step) : Inv (run T schedule) := by
  simp only [run]
  have h := inv_start
  generalize ({} : State) = s at *
  induction schedule generalizing s with
  | nil => exact h
  | cons st rest ih => exact ih _ (inv_step T s st h)

/-- **C168**: however the threads interleave, `get` returns an entry of the node that it is asked for, and events name the node of their entry;
what is announced has been filled in. -/
theorem C168_entry (T : Int) (schedule : List Step) (nid e : Nat) :
    (∀ i ts, .returned i nid e ts ∈ (run T schedule).trace → owner (run T schedule) e = some nid) ∧
    (∀ ts now, .offline nid e ts now ∈ (run T schedule).trace → owner (run T schedule) e = some nid) ∧
    (.new nid e ∈ (run T schedule).trace ∨ .info nid e ∈ (run T schedule).trace →
      owner (run T schedule) e = some nid ∧ stamp (run T schedule) e ≠ none) := by
  have h := inv_run T schedule
  exact ⟨fun i ts => h.returned i nid e ts, fun ts now => h.offline nid e ts now, fun g => g.elim (h.new nid e) (h.info nid e)⟩

/-- **C168**: however the threads interleave, nothing but `KeyError` leaves `spin`, and nothing but `KeyError` and `TypeError` leaves `get`. -/
theorem C168_raises (T : Int) (schedule : List Step) :
    (∀ x, .raised x ∈ (run T schedule).trace → x = .keyError) ∧
    ∀ i nid x, .failed i nid x ∈ (run T schedule).trace → x = .keyError ∨ x = .typeError :=
  ⟨(inv_run T schedule).raised, (inv_run T schedule).failed⟩

/-! ## One thread at a time -/

theorem times_append (n : Nat) (t : List Ev) (x : Ev) :
    times n (t ++ [x]) = times n t + (match x with | .offline _ e _ _ => if e = n then 1 else 0 | _ => 0) := by
  cases x <;> simp [times, List.countP_append, List.countP_cons]

theorem times_zero (n : Nat) (t : List Ev) (h : ∀ nid ts now, .offline nid n ts now ∉ t) : times n t = 0 := by
  simp only [times, List.countP_eq_zero]
  intro x hx
  cases x <;> simp
  rename_i nid e ts now
  intro hm
  exact h nid ts now (hm ▸ hx)

def toDo : Spin → List (Nat × Nat)
  | .sweep r => r
  | .held n e _ r => (n, e) :: r
  | .drop n e r => (n, e) :: r
  | .tell _ _ r => r
  | _ => []

def deleting : Spin → Option Nat
  | .get m .delete => some m.src
  | _ => none

/-- What holds as well if the threads exclude each other. -/
structure Lock (T : Int) (s : State) : Prop where
  tread : ∀ i nid ts, s.threads i = some (nid, .read ts) → ∃ e, s.registry.get? nid = some e ∧ stamp s e = some ts
  tstale : ∀ i nid, s.threads i = some (nid, .stale) → ∃ e ts, s.registry.get? nid = some e ∧ stamp s e = some ts ∧ ts + T < s.now
  sread : ∀ m ts, s.spin = .get m (.read ts) → ∃ e, s.registry.get? m.src = some e ∧ stamp s e = some ts
  sstale : ∀ m, s.spin = .get m .stale → ∃ e ts, s.registry.get? m.src = some e ∧ stamp s e = some ts ∧ ts + T < s.now
  zero : ∀ nid e, s.registry.get? nid = some e → (∀ i, s.threads i ≠ some (nid, .delete)) → deleting s.spin ≠ some nid →
    times e s.trace = 0
  once : ∀ e, times e s.trace ≤ 1
  live : ∀ nid e, (nid, e) ∈ toDo s.spin → s.registry.get? nid = some e
  nodup : ((pending s.spin).map Prod.fst).Nodup
  held : ∀ nid e ts rest, s.spin = .held nid e ts rest → stamp s e = some ts
  drop : ∀ nid e rest, s.spin = .drop nid e rest → ∃ ts, stamp s e = some ts ∧ ts + T < s.now
  tell : ∀ nid e rest, s.spin = .tell nid e rest → times e s.trace = 0 ∧ s.registry.get? nid = none ∧
    ∃ ts, stamp s e = some ts ∧ ts + T < s.now
  stale : ∀ nid e ts now, .offline nid e ts now ∈ s.trace → ∃ t, ts = some t ∧ t + T < now
  quiet : ∀ x, .raised x ∉ s.trace
  failed : ∀ i nid x, .failed i nid x ∈ s.trace → x = .keyError
  returned : ∀ i nid e ts, .returned i nid e ts ∈ s.trace → ts ≠ none

theorem lock_start (T : Int) : Lock T {} := by
  constructor <;> simp [Dict.get?, pending, toDo, MonitorThreads.times]

set_option maxHeartbeats 2000000 in
theorem lock_thread (T : Int) (i : Nat) (s : State) (v : Inv s) (k : Locked s) (h : Lock T s) : Lock T (threadStep T i s) := by
  obtain ⟨h1, h2, h3, h4, h5, h6, h7, h8, h9, h10, h11, h12, h13, h14, h15⟩ := h
  have v1 := v.ok
  have v2 := v.owned
  have v3 := v.filled
  clear v
  simp only [threadStep]
  split
  · constructor <;> assumption
  · rename_i nid l hl
    have ki := k i
    clear k
    cases l <;> simp only [outcome, effect]
    · split <;> (try split) <;> constructor <;> simp only [emit, stamp, owner, put] at * <;> grind [updating, toDo, deleting, times_append]
    · split <;> constructor <;> simp only [emit, stamp, owner, put] at * <;> grind [toDo, deleting, times_append]
    · split <;> constructor <;> simp only [emit, stamp, owner, put] at * <;> grind [toDo, deleting, times_append]
    · split <;> constructor <;> simp only [emit, stamp, owner, put] at * <;> grind [toDo, deleting, times_append, Dict.get?_del]
    · split <;> constructor <;> simp only [emit, stamp, owner, put] at * <;> grind [updating, toDo, deleting, times_append]

set_option maxHeartbeats 4000000 in
theorem lock_spin (T : Int) (s : State) (v : Inv s) (k : Locked s) (h : Lock T s) : Lock T (spinStep T s) := by
  have hz : ∀ i, s.spin ≠ .idle → s.threads i = none := by
    intro i hi
    have := k i
    grind
  clear k
  simp only [spinStep]
  split
  · exact h
  all_goals have hz := fun i => hz i (by rename_i g; simp [g])
  all_goals obtain ⟨h1, h2, h3, h4, h5, h6, h7, h8, h9, h10, h11, h12, h13, h14, h15⟩ := h
  all_goals have v1 := v.ok
  all_goals have v2 := v.owned
  all_goals have v3 := v.filled
  · rename_i m l hl
    clear v
    cases l with
    | start =>
      cases hg : s.registry.get? m.src with
      | none =>
        simp only [outcome, effect, hg]
        constructor <;> simp only [emit, stamp, owner] at * <;> grind [updating, toDo, deleting, pending, times_append, Dict.get?_del]
      | some e =>
        cases hs : stamp s e with
        | none =>
          simp only [outcome, effect, hg, hs]
          constructor <;> simp only [emit, stamp, owner] at * <;> grind [updating, toDo, deleting, pending, times_append, Dict.get?_del]
        | some ts =>
          simp only [outcome, effect, hg, hs]
          constructor <;> simp only [emit, stamp, owner] at * <;> grind [updating, toDo, deleting, pending, times_append, Dict.get?_del]
    | read ts =>
      by_cases c : ts + T < s.now
      · simp only [outcome, effect, if_pos c]
        constructor <;> simp only [emit, stamp, owner] at * <;> grind [updating, toDo, deleting, pending, times_append, Dict.get?_del]
      · simp only [outcome, effect, if_neg c]
        constructor <;> simp only [emit, stamp, owner] at * <;> grind [updating, toDo, deleting, pending, times_append, Dict.get?_del]
    | stale =>
      obtain ⟨e, ts, hg, hs⟩ := h4 m hl
      simp only [outcome, effect, hg, Option.isSome_some, if_true]
      constructor <;> simp only [emit, stamp, owner] at * <;> grind [updating, toDo, deleting, pending, times_append, Dict.get?_del]
    | delete =>
      have hd : ∀ nid e, s.registry.get? nid = some e → nid ≠ m.src → times e s.trace = 0 :=
        fun nid e g n => h5 nid e g (fun i => by simp [hz i]) (by simp [hl, deleting, Ne.symm n])
      clear h5
      cases hg : s.registry.get? m.src with
      | none =>
        simp only [outcome, effect, hg, Option.isSome_none, Bool.false_eq_true, if_false]
        constructor <;> simp only [emit, stamp, owner] at * <;> grind [updating, toDo, deleting, pending, times_append, Dict.get?_del]
      | some e =>
        simp only [outcome, effect, hg, Option.isSome_some, if_true]
        constructor <;> simp only [emit, stamp, owner] at * <;> grind [updating, toDo, deleting, pending, times_append, Dict.get?_del]
    | last =>
      cases hg : s.registry.get? m.src with
      | none =>
        simp only [outcome, effect, hg]
        constructor <;> simp only [emit, stamp, owner] at * <;> grind [updating, toDo, deleting, pending, times_append, Dict.get?_del]
      | some e =>
        simp only [outcome, effect, hg]
        constructor <;> simp only [emit, stamp, owner] at * <;> grind [updating, toDo, deleting, pending, times_append, Dict.get?_del]
  · have hn : times s.entries.length s.trace = 0 := by
      refine times_zero _ _ fun nid ts now g => ?_
      have := v.offline _ _ _ _ g
      simp [owner] at this
    clear v
    constructor <;> simp only [emit, stamp, owner] at * <;> grind [toDo, deleting, pending, Dict.get?_set]
  · clear v
    constructor <;> simp only [emit, stamp, owner] at * <;> grind [toDo, deleting, pending]
  · clear v
    split
    · constructor <;> simp only [emit, stamp, owner] at * <;> grind [toDo, deleting, pending, times_append]
    · split <;> constructor <;> simp only [emit, stamp, owner] at * <;> grind [toDo, deleting, pending, times_append]
  · clear v
    constructor <;> simp only [emit, stamp, owner] at * <;> grind [toDo, deleting, pending]
  · have v6 := v.pend
    clear v
    split <;> constructor <;> simp only [emit, stamp, owner] at * <;> grind [toDo, deleting, pending]
  · clear v
    split <;> constructor <;> simp only [emit, stamp, owner] at * <;> grind [toDo, deleting, pending]
  · clear v
    split <;> constructor <;> simp only [emit, stamp, owner] at * <;> grind [toDo, deleting, pending, Dict.get?_del]
  · have v6 := v.pend
    clear v
    constructor <;> simp only [emit, stamp, owner] at * <;> grind [toDo, deleting, pending, times_append]

set_option maxHeartbeats 2000000 in
theorem lock_step (T : Int) (s : State) (st : Step) (v : Inv s) (k : Locked s) (h : Lock T s) : Lock T (step T s st) := by
  have hm := fun k x => Dict.mem_iff_get? v.ok k x
  have hn : (s.registry.map Prod.fst).Nodup := v.ok
  cases st with
  | thread i => exact lock_thread T i s v k h
  | spin => exact lock_spin T s v k h
  | _ =>
    obtain ⟨h1, h2, h3, h4, h5, h6, h7, h8, h9, h10, h11, h12, h13, h14, h15⟩ := h
    clear v k
    simp only [step]
    try split
    all_goals constructor <;> simp only [emit, stamp, owner, put] at * <;> grind [updating, pending, toDo, deleting]

theorem run_append (T : Int) (pre : List Step) (st : Step) : run T (pre ++ [st]) = step T (run T pre) st := by
  simp [run]

theorem lock_run (T : Int) (schedule : List Step) (k : ∀ pre, pre <+: schedule → Locked (run T pre)) : Lock T (run T schedule) := by
  suffices h : ∀ n, n ≤ schedule.length → Lock T (run T (schedule.take n)) by
    have := h schedule.length (Nat.le_refl _)
    rwa [List.take_length] at this
  intro n
  induction n with
  | zero => exact fun _ => lock_start T
  | succ n ih =>
    intro hn
    rw [List.take_succ_eq_append_getElem (by omega), run_append]
    exact lock_step T _ _ (inv_run T _) (k _ (List.take_prefix _ _)) (ih (by omega))

/-- **C168**, partial: if no two threads are ever in the monitor at the same time, as a lock would have it, `spin` raises nothing, `get` raises nothing but
`KeyError` and returns entries that are filled in, no entry is reported to be offline twice, and none before its last message is older than `T`. -/
theorem C168_partial (T : Int) (schedule : List Step) (k : ∀ pre, pre <+: schedule → Locked (run T pre)) :
    (∀ x, .raised x ∉ (run T schedule).trace) ∧
    (∀ i nid x, .failed i nid x ∈ (run T schedule).trace → x = .keyError) ∧
    (∀ i nid e ts, .returned i nid e ts ∈ (run T schedule).trace → ts ≠ none) ∧
    (∀ e, times e (run T schedule).trace ≤ 1) ∧
    ∀ nid e ts now, .offline nid e ts now ∈ (run T schedule).trace → ∃ t, ts = some t ∧ t + T < now := by
  have h := lock_run T schedule k
  exact ⟨h.quiet, h.failed, h.returned, h.once, h.stale⟩

/-! ## Nodes that are never silent for long -/

/-- What holds as well if no last message is found too old. -/
structure Alive (s : State) : Prop where
  tread : ∀ i nid ts, s.threads i = some (nid, .read ts) → s.registry.get? nid ≠ none
  tlast : ∀ i nid, s.threads i = some (nid, .last) → s.registry.get? nid ≠ none
  tstale : ∀ i nid, s.threads i ≠ some (nid, .stale)
  tdelete : ∀ i nid, s.threads i ≠ some (nid, .delete)
  sread : ∀ m ts, s.spin = .get m (.read ts) → s.registry.get? m.src ≠ none
  slast : ∀ m, s.spin = .get m .last → s.registry.get? m.src ≠ none
  sstale : ∀ m, s.spin ≠ .get m .stale
  sdelete : ∀ m, s.spin ≠ .get m .delete
  drop : ∀ nid e rest, s.spin ≠ .drop nid e rest
  tell : ∀ nid e rest, s.spin ≠ .tell nid e rest
  insert : ∀ m, s.spin = .insert m → s.registry.get? m.src = none
  update : ∀ m e f, s.spin = .update m e f → s.registry.get? m.src = some e
  report : ∀ m e f, s.spin = .report m e f → s.registry.get? m.src = some e
  known : ∀ nid e, .new nid e ∈ s.trace ∨ .info nid e ∈ s.trace → s.registry.get? nid = some e
  offline : ∀ nid e ts now, .offline nid e ts now ∉ s.trace
  quiet : ∀ x, .raised x ∉ s.trace

theorem alive_start : Alive {} := by
  constructor <;> simp

set_option maxHeartbeats 4000000 in
theorem alive_step (T : Int) (s : State) (st : Step) (v : Inv s) (f : Fresh T s) (h : Alive s) : Alive (step T s st) := by
  obtain ⟨h1, h2, h3, h4, h5, h6, h7, h8, h9, h10, h11, h12, h13, h14, h15, h16⟩ := h
  obtain ⟨f1, f2, f3⟩ := f
  have v3 := v.filled
  have v6 := v.pend
  clear v
  cases st with
  | thread i =>
    simp only [step, threadStep]
    split
    · constructor <;> assumption
    · rename_i nid l hl
      cases l <;> simp only [outcome, effect]
      · split <;> constructor <;> simp only [emit, stamp, owner, put] at * <;> grind
      · split <;> constructor <;> simp only [emit, stamp, owner, put] at * <;> grind
      · exact absurd hl (h3 _ _)
      · exact absurd hl (h4 _ _)
      · split <;> constructor <;> simp only [emit, stamp, owner, put] at * <;> grind
  | spin =>
    simp only [step, spinStep]
    split
    · constructor <;> assumption
    · rename_i m l hl
      cases l <;> simp only [outcome, effect]
      · split <;> constructor <;> simp only [emit, stamp, owner] at * <;> grind [updating]
      · split <;> constructor <;> simp only [emit, stamp, owner] at * <;> grind
      · exact absurd hl (h7 _)
      · exact absurd hl (h8 _)
      · split <;> constructor <;> simp only [emit, stamp, owner] at * <;> grind
    · constructor <;> simp only [emit, stamp, owner] at * <;> grind [Dict.get?_set]
    · constructor <;> simp only [emit, stamp, owner] at * <;> grind
    · split
      · constructor <;> simp only [emit, stamp, owner] at * <;> grind
      · split <;> constructor <;> simp only [emit, stamp, owner] at * <;> grind
    · constructor <;> simp only [emit, stamp, owner] at * <;> grind
    · split <;> constructor <;> simp only [emit, stamp, owner] at * <;> grind [pending]
    · split <;> constructor <;> simp only [emit, stamp, owner] at * <;> grind
    · rename_i hd
      exact absurd hd (h9 _ _ _)
    · rename_i hd
      exact absurd hd (h10 _ _ _)
  | _ =>
    simp only [step]
    try split
    all_goals constructor <;> simp only [emit, stamp, owner, put] at * <;> grind

theorem alive_run (T : Int) (schedule : List Step) (k : ∀ pre, pre <+: schedule → Fresh T (run T pre)) : Alive (run T schedule) := by
  suffices h : ∀ n, n ≤ schedule.length → Alive (run T (schedule.take n)) by
    have := h schedule.length (Nat.le_refl _)
    rwa [List.take_length] at this
  intro n
  induction n with
  | zero => exact fun _ => alive_start
  | succ n ih =>
    intro hn
    rw [List.take_succ_eq_append_getElem (by omega), run_append]
    exact alive_step T _ _ (inv_run T _) (k _ (List.take_prefix _ _)) (ih (by omega))

theorem effect_id (nid : Nat) (s : State) (l : Look) (h : l ≠ .stale) (g : l ≠ .delete) : effect nid s l = s := by
  cases l with
  | stale => exact absurd rfl h
  | delete => exact absurd rfl g
  | _ => rfl

set_option maxHeartbeats 1000000 in
/-- What a step adds to the trace, if a node is in the registry and its entry is filled in. -/
theorem known_step (T : Int) (s : State) (st : Step) (h : Alive s) (nid e : Nat) (hk : s.registry.get? nid = some e)
    (hs : stamp s e ≠ none) : (step T s st).registry.get? nid = some e ∧ stamp (step T s st) e ≠ none ∧
    ∃ more, (step T s st).trace = s.trace ++ more ∧ (∀ i x, .failed i nid x ∉ more) ∧
      ∀ i e' ts, .returned i nid e' ts ∈ more → e' = e ∧ ts = stamp s e := by
  have same : ∀ s' : State, s'.registry = s.registry → s'.entries = s.entries → s'.trace = s.trace →
      s'.registry.get? nid = some e ∧ stamp s' e ≠ none ∧ ∃ more, s'.trace = s.trace ++ more ∧ (∀ i x, .failed i nid x ∉ more) ∧
      ∀ i e' ts, .returned i nid e' ts ∈ more → e' = e ∧ ts = stamp s e := by
    intro s' a b c
    refine ⟨a ▸ hk, ?_, [], by simp [c], by simp, by simp⟩
    simpa only [stamp, b] using hs
  have one : ∀ (s' : State) (x : Ev), s'.registry = s.registry → s'.entries = s.entries → s'.trace = s.trace ++ [x] →
      (∀ i y, x ≠ .failed i nid y) → (∀ i e' ts, x = .returned i nid e' ts → e' = e ∧ ts = stamp s e) →
      s'.registry.get? nid = some e ∧ stamp s' e ≠ none ∧ ∃ more, s'.trace = s.trace ++ more ∧ (∀ i x, .failed i nid x ∉ more) ∧
      ∀ i e' ts, .returned i nid e' ts ∈ more → e' = e ∧ ts = stamp s e := by
    intro s' x a b c p q
    refine ⟨a ▸ hk, ?_, [x], c, ?_, ?_⟩
    · simpa only [stamp, b] using hs
    · intro i y g
      exact p i y (List.mem_singleton.1 g).symm
    · intro i e' ts g
      exact q i e' ts (List.mem_singleton.1 g).symm
  cases st with
  | tick d => exact same _ rfl rfl rfl
  | call i n => simp only [step]; split <;> exact same _ rfl rfl rfl
  | arrive m => simp only [step]; split <;> exact same _ rfl rfl rfl
  | timer => simp only [step]; split <;> exact same _ rfl rfl rfl
  | thread i =>
    simp only [step, threadStep]
    split
    · exact same _ rfl rfl rfl
    · rename_i n l hl
      have h1 := h.tread i
      have h2 := h.tlast i
      have h3 := h.tstale i n
      have h4 := h.tdelete i n
      have he : effect n s l = s := effect_id n s l (fun g => h3 (g ▸ hl)) (fun g => h4 (g ▸ hl))
      rw [he]
      split
      · exact same _ rfl rfl rfl
      · rename_i e' ho
        refine one _ _ rfl rfl rfl (by simp) ?_
        intro j e'' ts g
        have := (outcome_ret T n s l e' ho).2
        simp only [Ev.returned.injEq] at g
        obtain ⟨_, g2, g3, g4⟩ := g
        subst g2 g3 g4
        rw [this] at hk
        simp only [Option.some.injEq] at hk
        exact ⟨hk, by rw [hk]⟩
      · rename_i x ho
        refine one _ _ rfl rfl rfl ?_ (by simp)
        intro j y g
        simp only [Ev.failed.injEq] at g
        obtain ⟨_, g2, _⟩ := g
        subst g2
        clear one same
        cases l <;> simp only [outcome] at ho <;> grind
  | spin =>
    simp only [step, spinStep]
    split
    · exact same _ rfl rfl rfl
    · rename_i m l hl
      have h3 := h.sstale m
      have h4 := h.sdelete m
      have he : effect m.src s l = s := effect_id m.src s l (fun g => h3 (g ▸ hl)) (fun g => h4 (g ▸ hl))
      rw [he]
      split
      · exact same _ rfl rfl rfl
      · exact same _ rfl rfl rfl
      · exact same _ rfl rfl rfl
      · exact one _ _ rfl rfl rfl (by simp) (by simp)
    · rename_i m hm
      have := h.insert m hm
      have hn : m.src ≠ nid := by
        intro g
        rw [g, hk] at this
        cases this
      refine ⟨by simp only [Dict.get?_set_ne _ _ hn, hk], ?_, [], by simp, by simp, by simp⟩
      clear one same
      simp only [stamp] at hs ⊢
      grind
    · refine ⟨hk, ?_, [], by simp, by simp, by simp⟩
      clear one same
      simp only [stamp] at hs ⊢
      grind
    · split
      · exact one _ _ rfl rfl rfl (by simp) (by simp)
      · split
        · exact one _ _ rfl rfl rfl (by simp) (by simp)
        · exact same _ rfl rfl rfl
    · exact same _ rfl rfl rfl
    · split
      · exact one _ _ rfl rfl rfl (by simp) (by simp)
      · exact same _ rfl rfl rfl
    · split <;> exact same _ rfl rfl rfl
    · rename_i hd
      exact absurd hd (h.drop _ _ _)
    · rename_i hd
      exact absurd hd (h.tell _ _ _)

theorem known_run (T : Int) (pre post : List Step) (k : ∀ p, p <+: pre ++ post → Fresh T (run T p)) (nid e : Nat)
    (hk : (run T pre).registry.get? nid = some e) (hs : stamp (run T pre) e ≠ none) :
    (run T (pre ++ post)).registry.get? nid = some e ∧ stamp (run T (pre ++ post)) e ≠ none ∧
    ∃ more, (run T (pre ++ post)).trace = (run T pre).trace ++ more ∧ (∀ i x, .failed i nid x ∉ more) ∧
      ∀ i e' ts, .returned i nid e' ts ∈ more → e' = e ∧ ts ≠ none := by
  induction post generalizing pre with
  | nil => exact ⟨by simpa using hk, by simpa using hs, [], by simp, by simp, by simp⟩
  | cons st rest ih =>
    have hp : pre <+: pre ++ st :: rest := List.prefix_append _ _
    have hst := known_step T (run T pre) st (alive_run T pre fun p hq => k p (hq.trans hp)) nid e hk hs
    rw [← run_append] at hst
    obtain ⟨g1, g2, m1, g3, g4, g5⟩ := hst
    have hc : pre ++ st :: rest = (pre ++ [st]) ++ rest := by simp
    rw [hc] at k ⊢
    obtain ⟨q1, q2, m2, q3, q4, q5⟩ := ih (pre ++ [st]) k g1 g2
    refine ⟨q1, q2, m1 ++ m2, by rw [q3, g3, List.append_assoc], ?_, ?_⟩
    · intro i x g
      rcases List.mem_append.1 g with g | g
      · exact g4 i x g
      · exact q4 i x g
    · intro i e' ts g
      rcases List.mem_append.1 g with g | g
      · obtain ⟨a, b⟩ := g5 i e' ts g
        exact ⟨a, b ▸ hs⟩
      · exact q5 i e' ts g

/-- **C168**, partial: while no thread finds the last message of a node too old, `spin` raises nothing and reports no node to be offline, however the
threads interleave. -/
theorem C168_alive_partial (T : Int) (schedule : List Step) (k : ∀ pre, pre <+: schedule → Fresh T (run T pre)) :
    (∀ x, .raised x ∉ (run T schedule).trace) ∧ ∀ nid e ts now, .offline nid e ts now ∉ (run T schedule).trace :=
  ⟨(alive_run T schedule k).quiet, (alive_run T schedule k).offline⟩

/-- **C168**, partial: and once a node has been announced, every `get` that asks for it returns the entry that has been announced, and that is filled in. -/
theorem C168_known_partial (T : Int) (pre post : List Step) (k : ∀ p, p <+: pre ++ post → Fresh T (run T p)) (nid e : Nat)
    (h : .new nid e ∈ (run T pre).trace ∨ .info nid e ∈ (run T pre).trace) :
    ∃ more, (run T (pre ++ post)).trace = (run T pre).trace ++ more ∧ (∀ i x, .failed i nid x ∉ more) ∧
      ∀ i e' ts, .returned i nid e' ts ∈ more → e' = e ∧ ts ≠ none := by
  have ha := alive_run T pre fun p hq => k p (hq.trans (List.prefix_append _ _))
  have hs : stamp (run T pre) e ≠ none := h.elim (fun g => ((inv_run T pre).new nid e g).2) (fun g => ((inv_run T pre).info nid e g).2)
  exact (known_run T pre post k nid e (ha.known nid e h) hs).2.2

/-! ## Examples and counterexamples -/

/-- A status message of node 5 is handled, received at time `ts`. -/
def hello (ts : Int) : List Step := .arrive ⟨5, ts, false⟩ :: List.replicate 6 .spin

/-- Thread 0 asks for node 5, and takes `n` steps. -/
def ask (n : Nat) : List Step := .call 0 5 :: List.replicate n (.thread 0)

theorem C168_quiet_counterexample : ¬ C168_quiet_statement := by
  intro h
  exact h 3000 (hello 0 ++ [.tick 4000, .timer, .spin, .spin] ++ ask 5 ++ [.spin]) .keyError (by decide) (by decide +kernel)

theorem C168_once_counterexample : ¬ C168_once_statement := by
  intro h
  exact absurd (h 3000 (hello 0 ++ [.tick 4000] ++ ask 3 ++ [.timer, .spin, .spin, .spin, .spin]) 0 (by decide)) (by decide +kernel)

theorem C168_offline_counterexample : ¬ C168_offline_statement := by
  intro h
  have := h 3000 (hello 0 ++ [.tick 2999, .arrive ⟨5, 2999, false⟩] ++ List.replicate 3 .spin ++ ask 1 ++ [.spin, .tick 2, .thread 0, .thread 0])
    5 0 (some 2999) 3001 (by decide) (by decide +kernel)
  simp at this

theorem C168_failed_counterexample : ¬ C168_failed_statement := by
  intro h
  exact absurd (h 3000 ([.arrive ⟨5, 0, false⟩, .spin, .spin] ++ ask 1) 0 5 .typeError (by decide) (by decide +kernel)) (by decide)

theorem C168_filled_counterexample : ¬ C168_filled_statement := by
  intro h
  exact h 3000 (hello 0 ++ [.tick 4000] ++ ask 4 ++ [.arrive ⟨5, 4000, false⟩, .spin, .spin, .thread 0]) 0 5 1 none (by decide) (by decide +kernel) rfl

/-- A node that is announced, found, silent for too long, reported, and announced again. -/
example : (run 3000 (hello 0 ++ ask 3 ++ [.tick 3001] ++ ask 5 ++ hello 3001 ++ [.tick 3001, .timer] ++ List.replicate 5 .spin)).trace =
    [.new 5 0, .returned 0 5 0 (some 0), .offline 5 0 (some 0) 3001, .failed 0 5 .keyError, .new 5 1, .offline 5 1 (some 3001) 6002] := by
  decide +kernel

/-! The hypotheses of the partial theorems are met by schedules in which one thread asks. -/

theorem only (T : Int) (s : State) (st : Step) (h : ∀ j, j ≠ 0 → s.threads j = none) (g : ∀ j n, st = .call j n → j = 0) :
    ∀ j, j ≠ 0 → (step T s st).threads j = none := by
  intro j hj
  have e1 := effect_threads
  cases st with
  | call i n =>
    simp only [step]
    split <;> grind [put]
  | thread i =>
    simp only [step, threadStep]
    split
    · exact h j hj
    · split <;> simp only [put, emit] <;> grind
  | spin =>
    simp only [step, spinStep]
    repeat' split
    all_goals simp only [emit, e1, h j hj]
  | _ =>
    simp only [step]
    try split
    all_goals exact h j hj

theorem only_run (T : Int) (schedule : List Step) (g : ∀ j n, .call j n ∈ schedule → j = 0) :
    ∀ j, j ≠ 0 → (run T schedule).threads j = none := by
  simp only [run]
  have h : ∀ j, j ≠ 0 → ({} : State).threads j = none := fun _ _ => rfl
  generalize ({} : State) = s at *
  induction schedule generalizing s with
  | nil => exact h
  | cons st rest ih => exact ih (fun j n m => g j n (List.mem_cons_of_mem _ m)) _ (only T s st h fun j n e => g j n (e ▸ List.mem_cons_self))

def lockedAt (s : State) : Bool := (s.threads 0).isNone || s.spin = .idle

def freshAt (T : Int) (s : State) : Bool :=
  (match s.threads 0 with | some (_, .read ts) => s.now ≤ ts + T | _ => true) &&
  (match s.spin with | .get _ (.read ts) => s.now ≤ ts + T | .held _ _ ts _ => s.now ≤ ts + T | _ => true)

theorem prefixes (schedule : List Step) (P : List Step → Prop) (h : ∀ n ∈ List.range (schedule.length + 1), P (schedule.take n)) :
    ∀ pre, pre <+: schedule → P pre := by
  intro pre hp
  have h1 := h pre.length (List.mem_range.2 (Nat.lt_succ_of_le hp.length_le))
  rwa [← List.prefix_iff_eq_take.1 hp] at h1

theorem locked_of (T : Int) (schedule : List Step) (g : ∀ j n, .call j n ∈ schedule → j = 0)
    (h : (List.range (schedule.length + 1)).all (fun n => lockedAt (run T (schedule.take n))) = true) :
    ∀ pre, pre <+: schedule → Locked (run T pre) := by
  refine prefixes schedule _ fun n hn i hi => ?_
  have ho := only_run T (schedule.take n) fun j m e => g j m (List.mem_of_mem_take e)
  have hl := List.all_eq_true.1 h n hn
  have h0 : ∀ j, (run T (schedule.take n)).threads j ≠ none → j = 0 := fun j hj => Decidable.byContradiction fun c => hj (ho j c)
  have hi0 := h0 i hi
  subst hi0
  refine ⟨?_, fun j hj => h0 j hj⟩
  simp only [lockedAt, Bool.or_eq_true, decide_eq_true_eq, Option.isNone_iff_eq_none] at hl
  exact hl.resolve_left hi

theorem fresh_of (T : Int) (schedule : List Step) (g : ∀ j n, .call j n ∈ schedule → j = 0)
    (h : (List.range (schedule.length + 1)).all (fun n => freshAt T (run T (schedule.take n))) = true) :
    ∀ pre, pre <+: schedule → Fresh T (run T pre) := by
  refine prefixes schedule _ fun n hn => ?_
  have ho := only_run T (schedule.take n) fun j m e => g j m (List.mem_of_mem_take e)
  have hl := List.all_eq_true.1 h n hn
  have h0 : ∀ j, (run T (schedule.take n)).threads j ≠ none → j = 0 := fun j hj => Decidable.byContradiction fun c => hj (ho j c)
  simp only [freshAt, Bool.and_eq_true] at hl
  constructor <;> grind

/-- `get` finds the node, and then that it has been silent for too long. -/
example : ∀ pre, pre <+: hello 0 ++ ask 3 ++ [.tick 3001] ++ ask 5 ++ hello 3001 → Locked (run 3000 pre) :=
  locked_of 3000 _ (by simp [hello, ask]) (by decide +kernel)

/-- Thread 0 asks while a second message of node 5 is handled, and while stale nodes are looked for. -/
example : ∀ pre, pre <+: hello 0 ++ [.tick 2999, .arrive ⟨5, 2999, false⟩, .spin] ++ ask 1 ++ [.spin, .thread 0, .spin, .spin, .thread 0, .spin, .timer,
    .spin] ++ ask 1 ++ [.spin, .thread 0, .thread 0] → Fresh 3000 (run 3000 pre) :=
  fresh_of 3000 _ (by simp [hello, ask]) (by decide +kernel)

end MonitorThreads
end Dronecan
