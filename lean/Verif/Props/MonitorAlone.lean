import Verif.Props.MonitorThreads

/-!
# The node monitor while no other thread intervenes (C168)
-/

namespace Dronecan
namespace MonitorThreads

/-- C168 in full, of which the parts are false one by one (Props/MonitorThreads). -/
def C168_statement : Prop := C168_quiet_statement ∧ C168_once_statement ∧ C168_offline_statement ∧ C168_failed_statement ∧ C168_filled_statement

theorem C168_counterexample : ¬ C168_statement := fun h => C168_quiet_counterexample h.1

/-- Steps from a state. -/
def go (T : Int) (s : State) (l : List Step) : State := l.foldl (step T) s

theorem put_same (ths : Nat → Option (Nat × Look)) (i : Nat) (a : Option (Nat × Look)) : put ths i a i = a := by simp [put]

/-- **C168**: a call of `get` during which no other thread runs raises `KeyError` if there is no such node; returns its entry, and changes nothing, if its
last message is not too old; and else reports that it is offline, forgets it, and raises `KeyError`. -/
theorem C168_get (T : Int) (s : State) (i nid : Nat) (ok : Dict.Ok s.registry) (hi : s.threads i = none) :
    (s.registry.get? nid = none → (go T s [.call i nid, .thread i]).trace = s.trace ++ [.failed i nid .keyError] ∧
      (go T s [.call i nid, .thread i]).registry = s.registry ∧ (go T s [.call i nid, .thread i]).threads i = none) ∧
    ∀ e ts, s.registry.get? nid = some e → stamp s e = some ts →
      (s.now ≤ ts + T → (go T s (.call i nid :: List.replicate 3 (.thread i))).trace = s.trace ++ [.returned i nid e (some ts)] ∧
        (go T s (.call i nid :: List.replicate 3 (.thread i))).registry = s.registry ∧
        (go T s (.call i nid :: List.replicate 3 (.thread i))).threads i = none) ∧
      (ts + T < s.now → (go T s (.call i nid :: List.replicate 5 (.thread i))).trace =
          s.trace ++ [.offline nid e (some ts) s.now, .failed i nid .keyError] ∧
        (go T s (.call i nid :: List.replicate 5 (.thread i))).registry = s.registry.del nid ∧
        (go T s (.call i nid :: List.replicate 5 (.thread i))).threads i = none) := by
  have hp := put_same
  refine ⟨fun hg => ?_, fun e ts hg hs => ⟨fun hf => ?_, fun hf => ?_⟩⟩
  · simp [go, step, hi, threadStep, hp, outcome, hg, effect, emit]
  · have hf' : ¬ ts + T < s.now := by omega
    simp only [stamp] at hs
    simp [go, List.replicate, step, hi, threadStep, hp, outcome, hg, effect, emit, stamp, hs, hf']
  · have hd := Dict.get?_del_self ok nid
    simp only [stamp] at hs
    simp [go, List.replicate, step, hi, threadStep, hp, outcome, hg, effect, emit, stamp, hs, hf, hd]

/-- What is reported for a message: the node information, or that the node is new. -/
def news (m : Msg) (e : Nat) (fresh : Bool) : List Ev := if m.info then [.info m.src e] else if fresh then [.new m.src e] else []

/-- **C168**: a message that is handled while no other thread runs renews the time of its node, which is announced if it is new or comes back after it has
been silent for too long. -/
theorem C168_message (T : Int) (s : State) (m : Msg) (ok : Dict.Ok s.registry) (hi : s.spin = .idle) :
    (s.registry.get? m.src = none → ∃ n, (go T s (.arrive m :: List.replicate n .spin)).spin = .idle ∧
      (go T s (.arrive m :: List.replicate n .spin)).registry = s.registry.set m.src s.entries.length ∧
      (go T s (.arrive m :: List.replicate n .spin)).entries = s.entries ++ [(m.src, some m.ts)] ∧
      (go T s (.arrive m :: List.replicate n .spin)).trace = s.trace ++ news m s.entries.length true) ∧
    ∀ e ts, s.registry.get? m.src = some e → s.entries[e]? = some (m.src, some ts) →
      (s.now ≤ ts + T → ∃ n, (go T s (.arrive m :: List.replicate n .spin)).spin = .idle ∧
        (go T s (.arrive m :: List.replicate n .spin)).registry = s.registry ∧
        (go T s (.arrive m :: List.replicate n .spin)).entries = s.entries.set e (m.src, some m.ts) ∧
        (go T s (.arrive m :: List.replicate n .spin)).trace = s.trace ++ news m e false) ∧
      (ts + T < s.now → ∃ n, (go T s (.arrive m :: List.replicate n .spin)).spin = .idle ∧
        (go T s (.arrive m :: List.replicate n .spin)).registry = (s.registry.del m.src).set m.src s.entries.length ∧
        (go T s (.arrive m :: List.replicate n .spin)).entries = s.entries ++ [(m.src, some m.ts)] ∧
        (go T s (.arrive m :: List.replicate n .spin)).trace = s.trace ++ .offline m.src e (some ts) s.now :: news m s.entries.length true) := by
  have hmod : (s.entries ++ [(m.src, (none : Option Int))]).modify s.entries.length (fun x => (x.1, some m.ts)) = s.entries ++ [(m.src, some m.ts)] := by
    apply List.ext_getElem?
    intro j
    grind
  refine ⟨fun hg => ⟨4, ?_⟩, fun e ts hg hs => ⟨fun hf => ⟨5, ?_⟩, fun hf => ⟨8, ?_⟩⟩⟩
  · cases h : m.info <;> simp [go, List.replicate, step, hi, spinStep, outcome, hg, effect, emit, hmod, news, h]
  · have hf' : ¬ ts + T < s.now := by omega
    have hset : s.entries.modify e (fun x => (x.1, some m.ts)) = s.entries.set e (m.src, some m.ts) := by
      apply List.ext_getElem?
      intro j
      grind
    cases h : m.info <;> simp [go, List.replicate, step, hi, spinStep, outcome, hg, effect, emit, stamp, hs, hf', hset, news, h]
  · have hd := Dict.get?_del_self ok m.src
    cases h : m.info <;> simp [go, List.replicate, step, hi, spinStep, outcome, hg, effect, emit, stamp, hs, hf, hd, hmod, news, h]

/-- Whether the last message of an entry is too old. -/
def old (T : Int) (s : State) (e : Nat) : Bool := match stamp s e with | some ts => ts + T < s.now | none => false

theorem go_append (T : Int) (s : State) (a b : List Step) : go T s (a ++ b) = go T (go T s a) b := by simp [go]

theorem sweep_alone (T : Int) (rest : List (Nat × Nat)) : ∀ (s : State), Dict.Ok s.registry → s.spin = .sweep rest → (rest.map Prod.fst).Nodup →
    (∀ p ∈ rest, s.registry.get? p.1 = some p.2 ∧ stamp s p.2 ≠ none) →
    ∃ n, (go T s (List.replicate n .spin)).spin = .idle ∧
      (go T s (List.replicate n .spin)).trace = s.trace ++ (rest.filter fun p => old T s p.2).map (fun p => Ev.offline p.1 p.2 (stamp s p.2) s.now) ∧
      (∀ nid, (go T s (List.replicate n .spin)).registry.get? nid = if rest.any (fun p => p.1 = nid && old T s p.2) then none else s.registry.get? nid) := by
  induction rest with
  | nil =>
    intro s ok hs _ _
    exact ⟨1, by simp [go, List.replicate, step, spinStep, hs]⟩
  | cons p rest ih =>
    intro s ok hs hn hr
    obtain ⟨nid, e⟩ := p
    obtain ⟨hg, hf⟩ := hr (nid, e) List.mem_cons_self
    obtain ⟨ts, ht⟩ := Option.ne_none_iff_exists'.1 hf
    simp only at hg ht
    have h1 : go T s [.spin] = { s with spin := .held nid e ts rest } := by simp [go, step, spinStep, hs, ht]
    simp only [List.map_cons, List.nodup_cons] at hn
    by_cases c : ts + T < s.now
    · have h2 : go T s [.spin, .spin, .spin, .spin] = { s with
          registry := s.registry.del nid
          trace := s.trace ++ [.offline nid e (some ts) s.now]
          spin := .sweep rest } := by
        have : go T s ([.spin] ++ [.spin, .spin, .spin]) = _ := go_append T s _ _
        rw [h1] at this
        simp only [List.cons_append, List.nil_append] at this
        rw [this]
        simp only [stamp] at ht
        simp [go, step, spinStep, c, hg, emit, stamp, ht]
      obtain ⟨n, g1, g2, g3⟩ := ih { s with
          registry := s.registry.del nid
          trace := s.trace ++ [.offline nid e (some ts) s.now]
          spin := .sweep rest } (Dict.ok_del ok nid) rfl hn.2 (by
        intro p hp
        have h3 := hr p (List.mem_cons_of_mem _ hp)
        refine ⟨?_, h3.2⟩
        have hne : nid ≠ p.1 := fun q => hn.1 (q ▸ List.mem_map_of_mem hp)
        simp only [Dict.get?_del_ne _ hne, h3.1])
      have ho : old T s e = true := by simp [old, ht, c]
      have hrep : List.replicate (n + 4) Step.spin = [Step.spin, .spin, .spin, .spin] ++ List.replicate n .spin := by
        simp [List.replicate_succ]
      refine ⟨n + 4, ?_⟩
      rw [hrep, go_append, h2]
      refine ⟨g1, ?_, ?_⟩
      · rw [g2]
        simp only [List.filter_cons, ho, if_true, List.map_cons, ht, List.append_assoc]
        rfl
      · intro k
        rw [g3 k]
        simp only [List.any_cons, ho, Bool.and_true]
        by_cases q : nid = k
        · subst q
          simp [Dict.get?_del_self ok]
        · simp only [Dict.get?_del_ne _ q, q, decide_false, Bool.false_or]
          rfl
    · have h2 : go T s [.spin, .spin] = { s with spin := .sweep rest } := by
        have : go T s ([.spin] ++ [.spin]) = _ := go_append T s _ _
        rw [h1] at this
        simp only [List.cons_append, List.nil_append] at this
        rw [this]
        simp [go, step, spinStep, c]
      obtain ⟨n, g1, g2, g3⟩ := ih { s with spin := .sweep rest } ok rfl hn.2 (fun p hp => hr p (List.mem_cons_of_mem _ hp))
      have ho : old T s e = false := by simp [old, ht, c]
      have hrep : List.replicate (n + 2) Step.spin = [Step.spin, .spin] ++ List.replicate n .spin := by
        simp [List.replicate_succ]
      refine ⟨n + 2, ?_⟩
      rw [hrep, go_append, h2]
      refine ⟨g1, ?_, ?_⟩
      · rw [g2]
        simp only [List.filter_cons, ho, Bool.false_eq_true, if_false]
        rfl
      · intro k
        rw [g3 k]
        simp only [List.any_cons, ho, Bool.and_false, Bool.false_or]
        rfl

/-- **C168**: when `_remove_stale` runs and no other thread does, the nodes whose last message is too old are forgotten, each is reported to be offline,
and the others stay. -/
theorem C168_sweep (T : Int) (schedule : List Step) (hi : (run T schedule).spin = .idle) :
    ∃ n, (run T (schedule ++ .timer :: List.replicate n .spin)).spin = .idle ∧
      (run T (schedule ++ .timer :: List.replicate n .spin)).trace = (run T schedule).trace ++
        ((run T schedule).registry.filter fun p => old T (run T schedule) p.2).map (fun p =>
          Ev.offline p.1 p.2 (stamp (run T schedule) p.2) (run T schedule).now) ∧
      ∀ nid, (run T (schedule ++ .timer :: List.replicate n .spin)).registry.get? nid =
        ((run T schedule).registry.get? nid).filter fun e => !old T (run T schedule) e := by
  have v := inv_run T schedule
  have happ : ∀ l, run T (schedule ++ l) = go T (run T schedule) l := fun l => by simp [run, go]
  have htm : ∀ l, go T (run T schedule) (.timer :: l) = go T { run T schedule with spin := .sweep (run T schedule).registry } l := fun l => by
    simp [go, step, hi]
  obtain ⟨n, g1, g2, g3⟩ := sweep_alone T (run T schedule).registry { run T schedule with spin := .sweep (run T schedule).registry } v.ok rfl v.ok (by
    intro p hp
    have hg := (Dict.mem_iff_get? v.ok p.1 p.2).1 hp
    refine ⟨hg, fun hc => ?_⟩
    have := v.filled p.1 p.2 hg hc
    simp [hi, updating] at this)
  refine ⟨n, ?_, ?_, ?_⟩
  · rw [happ, htm]
    exact g1
  · rw [happ, htm]
    exact g2
  · intro nid
    rw [happ, htm, g3 nid]
    have hold : ∀ e, old T { run T schedule with spin := .sweep (run T schedule).registry } e = old T (run T schedule) e := fun e => rfl
    simp only [hold]
    cases hg : (run T schedule).registry.get? nid with
    | none =>
      simp
    | some e =>
      have hm := (Dict.mem_iff_get? v.ok nid e).2 hg
      have huniq : ∀ e', (nid, e') ∈ (run T schedule).registry → e' = e := fun e' h' => by
        have := (Dict.mem_iff_get? v.ok nid e').1 h'
        rw [hg] at this
        exact (Option.some.inj this).symm
      cases ho : old T (run T schedule) e with
      | true =>
        have : (run T schedule).registry.any (fun p => p.1 = nid && old T (run T schedule) p.2) = true :=
          List.any_eq_true.2 ⟨(nid, e), hm, by simp [ho]⟩
        simp [this, Option.filter, ho]
      | false =>
        have : (run T schedule).registry.any (fun p => p.1 = nid && old T (run T schedule) p.2) = false := by
          rw [List.any_eq_false]
          intro p hp hq
          obtain ⟨a, b⟩ := p
          simp only [Bool.and_eq_true, decide_eq_true_eq] at hq
          obtain ⟨rfl, q⟩ := hq
          rw [huniq b hp, ho] at q
          cases q
        simp [this, Option.filter, ho]

/-- Node 5 is found; two nodes are there when stale nodes are looked for, and one is too old. -/
example : (run 3000 (hello 0 ++ ask 3)).trace = [.new 5 0, .returned 0 5 0 (some 0)] ∧ (run 3000 (hello 0 ++ ask 3)).threads 0 = none ∧
    (run 3000 (hello 0 ++ ask 3)).spin = .idle ∧ (run 3000 (hello 0 ++ ask 3)).registry = [(5, 0)] ∧
    (run 3000 (hello 0 ++ [.tick 3001, .arrive ⟨6, 3000, true⟩] ++ List.replicate 4 .spin ++ .timer :: List.replicate 7 .spin)).trace =
      [.new 5 0, .info 6 1, .offline 5 0 (some 0) 3001] ∧
    (run 3000 (hello 0 ++ [.tick 3001, .arrive ⟨6, 3000, true⟩] ++ List.replicate 4 .spin ++ .timer :: List.replicate 7 .spin)).registry = [(6, 1)] := by
  decide +kernel

end MonitorThreads
end Dronecan
