import Verif.Model.AllocMonitor
import Verif.Props.Allocator
import Verif.Props.Monitor

/-!
# Node IDs that are in use are not handed out (C120)
-/

namespace Dronecan
namespace AllocSys
open PyM

/-! ## Specification -/

/-- The state after a history: the monitor runs (`pre`), the server is created with the loaded table, and both run
(`ops`). -/
def history (env : Env) (c : Clock) (pre : List Monitor.Op) (loaded : Alloc.Table) (nodeId : Nat)
    (uid : List Byte) (wall : Int) (ops : List Op) : Sys :=
  run env (create env (Monitor.run env.mon (Monitor.init c) pre) loaded nodeId uid wall) ops

/-- The operation makes the server grant the node ID `i` to the device `u`. -/
def Grant (env : Env) (s : Sys) (op : Op) (i : Nat) (u : List Byte) : Prop :=
  ∃ a : Alloc.Allocation, Alloc.grants (step env s op).srv.sent = Alloc.grants s.srv.sent ++ [a] ∧ a.nodeId = i ∧ a.uid = u

/-- The table says that the node ID `i` belongs to the device `u`. -/
def Belongs (t : Alloc.Table) (i : Nat) (u : List Byte) : Prop := ∃ r ∈ t, r.nodeId = i ∧ r.uid = some u

/-- The server stays: its handler is not removed from the monitor. -/
def Stays (env : Env) (ops : List Op) : Prop := ∀ wall, Op.monitor (.removeHandler env.me) wall ∉ ops

/-- The node ID of a node that the monitor lists is granted to nobody but that node: a device to which the table says the
ID belongs and which, if the listed node has told its unique ID, is the listed node. -/
def C120_statement : Prop :=
  ∀ (env : Env) (c : Clock) (pre : List Monitor.Op) (loaded : Alloc.Table) (nodeId : Nat) (uid : List Byte)
    (wall : Int) (ops : List Op) (op : Op) (i : Nat) (u : List Byte) (e : Monitor.Entry),
    Monitor.NoRaise env.mon → Alloc.Keyed loaded → Stays env ops →
    Grant env (history env c pre loaded nodeId uid wall ops) op i u →
    (history env c pre loaded nodeId uid wall ops).mon.registry.get? i = some e →
    Belongs (history env c pre loaded nodeId uid wall ops).srv.table i u ∧ ∀ v, e.info = some v → v = u

/-- Every GetNodeInfo transfer that the monitor sees is a response with a readable name. -/
def Readable (ops : List Op) : Prop := ∀ m wall, Op.monitor (.info m) wall ∈ ops → m.body ≠ none ∧ m.nameOk = true

/-- No device reports its unique ID (a nonzero one) under a node ID that the table says belongs to another. -/
def Honest (env : Env) (s : Sys) : List Op → Prop
  | [] => True
  | op :: ops =>
    (∀ m wall up v, op = .monitor (.info m) wall → m.body = some (up, v) →
      Alloc.NonZero v ∧ ∀ w, Belongs s.srv.table m.src w → w = v) ∧ Honest env (step env s op) ops

/-! ## The server -/

variable {env : Env}

theorem belongs_iff {t : Alloc.Table} (hk : Alloc.Keyed t) {i : Nat} {u : List Byte} :
    Belongs t i u ↔ t.getUniqueId i = some u := by
  constructor
  · rintro ⟨r, h1, rfl, h2⟩
    rw [Alloc.getUniqueId_mem hk h1, h2]
  · intro h
    unfold Alloc.Table.getUniqueId at h
    split at h
    · rename_i r hr
      have := List.find?_some hr
      exact ⟨r, List.mem_of_find?_eq_some hr, by simpa using this, h⟩
    · cases h

theorem belongs_unique {t : Alloc.Table} (hk : Alloc.Keyed t) {i : Nat} {u v : List Byte} (h : Belongs t i u)
    (h' : Belongs t i v) : u = v :=
  Option.some.inj (((belongs_iff hk).1 h).symm.trans ((belongs_iff hk).1 h'))

/-- What the server keeps from one moment to the next. -/
structure Keeps (s s' : Alloc.Server) : Prop where
  keyed : Alloc.Keyed s.table → Alloc.Keyed s'.table
  known : ∀ i, s.table.isKnown i = true → s'.table.isKnown i = true
  belongs : Alloc.Keyed s.table → ∀ i w, Alloc.NonZero w → Belongs s.table i w → Belongs s'.table i w

theorem Keeps.refl (s : Alloc.Server) : Keeps s s := ⟨id, fun _ => id, fun _ _ _ _ => id⟩

theorem Keeps.trans {s s' s'' : Alloc.Server} (h : Keeps s s') (h' : Keeps s' s'') : Keeps s s'' :=
  ⟨fun hk => h'.keyed (h.keyed hk), fun i hi => h'.known i (h.known i hi),
    fun hk i w hw hb => h'.belongs (h.keyed hk) i w hw (h.belongs hk i w hw hb)⟩

theorem isKnown_set {t : Alloc.Table} {u : Option (List Byte)} {n i : Nat} {wall : Int}
    (h : t.isKnown i = true ∨ i = n) : (t.set u n wall).isKnown i = true := by
  rw [Alloc.isKnown_iff]
  by_cases hi : i = n
  · exact ⟨_, Alloc.set_mem.2 (.inr rfl), hi.symm⟩
  · obtain ⟨r, h1, h2⟩ := Alloc.isKnown_iff.1 (h.resolve_right hi)
    exact ⟨r, Alloc.set_mem.2 (.inl ⟨h1, by rw [h2]; exact hi⟩), h2⟩

theorem belongs_set_ne {t : Alloc.Table} {u : Option (List Byte)} {n i : Nat} {wall : Int} {w : List Byte}
    (h : Belongs t i w) (hi : i ≠ n) : Belongs (t.set u n wall) i w := by
  obtain ⟨r, h1, h2, h3⟩ := h
  exact ⟨r, Alloc.set_mem.2 (.inl ⟨h1, by rw [h2]; exact hi⟩), h2, h3⟩

theorem belongs_set_self {t : Alloc.Table} {n : Nat} {wall : Int} {w : List Byte} (hw : Alloc.NonZero w) :
    Belongs (t.set (some w) n wall) n w :=
  ⟨_, Alloc.set_mem.2 (.inr rfl), rfl, by simp [Alloc.stored, Alloc.isZero_iff.2 hw]⟩

theorem keeps_step (aenv : Alloc.AEnv) (s : Alloc.Server) (op : Alloc.Op) : Keeps s (Alloc.step aenv s op) := by
  have hc := Alloc.step_case aenv s op
  refine ⟨hc.keyed, ?_, ?_⟩
  · intro i hi
    cases hc with
    | quiet ht hg => rw [ht]; exact hi
    | monitor n u wall hop hu ht hg => rw [ht]; exact isKnown_set (.inl hi)
    | grant rx now wall u n hop hsrc hfirst hlen hq hu htime hc ht hg => rw [ht]; exact isKnown_set (.inl hi)
  · intro hk i w hw hb
    cases hc with
    | quiet ht hg => rw [ht]; exact hb
    | monitor n u wall hop hu ht hg =>
      rw [ht]
      refine belongs_set_ne hb fun hi => ?_
      subst hi
      rw [(belongs_iff hk).1 hb] at hu
      cases hu
    | grant rx now wall u n hop hsrc hfirst hlen hq hu htime hc ht hg =>
      rw [ht]
      by_cases hi : i = n
      · subst hi
        rcases (Alloc.chooseId_some aenv hc).2 with h1 | ⟨h1, -⟩
        · have := belongs_unique hk hb (Alloc.getNodeId_some h1)
          subst this
          exact belongs_set_self hw
        · obtain ⟨r, h2, h3, -⟩ := hb
          rw [Alloc.isKnown_iff.2 ⟨r, h2, h3⟩] at h1
          cases h1
      · exact belongs_set_ne hb hi

theorem keeps_tell (wall : Int) (s : Alloc.Server) (ev : Monitor.MEv) : Keeps s (tell env wall s ev) := by
  cases ev with
  | called cb kind e =>
    simp only [tell]
    split
    · exact keeps_step env.alloc s (.monitor e.nodeId e.info wall)
    · exact .refl s
  | request => exact .refl s

theorem keeps_fold (wall : Int) (s : Alloc.Server) (evs : List Monitor.MEv) : Keeps s (evs.foldl (tell env wall) s) := by
  induction evs generalizing s with
  | nil => exact .refl s
  | cons ev evs ih => exact (keeps_tell wall s ev).trans (ih _)

theorem keeps_sys (s : Sys) (op : Op) : Keeps s.srv (step env s op).srv := by
  cases op with
  | monitor op wall => exact keeps_fold wall _ _
  | alloc rx now wall => exact keeps_step env.alloc s.srv (.alloc rx (Monitor.allDiscovered s.mon) now wall)

theorem keeps_run (s : Sys) (ops : List Op) : Keeps s.srv (run env s ops).srv := by
  induction ops generalizing s with
  | nil => exact .refl _
  | cons op ops ih => exact (keeps_sys s op).trans (ih _)

theorem run_append (s : Sys) (ops ops' : List Op) : run env s (ops ++ ops') = run env (run env s ops) ops' := by
  simp [run]

/-- A node that the server is told of is known. -/
theorem tell_known (wall : Int) (s : Alloc.Server) (kind : Monitor.Kind) (e : Monitor.Entry) (hkd : kind ≠ .offline) :
    (tell env wall s (.called env.me kind e)).table.isKnown e.nodeId = true := by
  simp only [tell, hkd, ne_eq, not_false_eq_true, and_self, if_true, Alloc.onMonitorEvent, modify_run]
  split
  · exact isKnown_set (.inr rfl)
  · rename_i h
    unfold Alloc.Table.getUniqueId at h
    split at h
    · rename_i r hr
      have := List.find?_some hr
      exact Alloc.isKnown_iff.2 ⟨r, List.mem_of_find?_eq_some hr, by simpa using this⟩
    · exact absurd rfl h

theorem fold_known (wall : Int) (s : Alloc.Server) (evs : List Monitor.MEv) (kind : Monitor.Kind) (e : Monitor.Entry)
    (hkd : kind ≠ .offline) (hm : Monitor.MEv.called env.me kind e ∈ evs) :
    (evs.foldl (tell env wall) s).table.isKnown e.nodeId = true := by
  induction evs generalizing s with
  | nil => cases hm
  | cons ev evs ih =>
    rcases List.mem_cons.1 hm with rfl | hm
    · exact (keeps_fold wall _ evs).known _ (tell_known wall s kind e hkd)
    · exact ih _ hm

/-- Events about other nodes, or that nodes are gone, change nothing in the table about node `i`. -/
theorem fold_offline (wall : Int) (s : Alloc.Server) (evs : List Monitor.MEv)
    (h : ∀ x ∈ evs, ∃ cb e, x = .called cb .offline e) : evs.foldl (tell env wall) s = s := by
  induction evs generalizing s with
  | nil => rfl
  | cons ev evs ih =>
    obtain ⟨cb, e, rfl⟩ := h ev List.mem_cons_self
    rw [List.foldl_cons]
    have : tell env wall s (.called cb .offline e) = s := by simp [tell]
    rw [this]
    exact ih s fun x hx => h x (List.mem_cons_of_mem _ hx)

/-- A unique ID that is reported of a node whose ID belongs to nobody yet goes into the table. -/
theorem fold_report (wall : Int) (s : Alloc.Server) (cbs : List Nat) (e : Monitor.Entry) (v : List Byte)
    (hv : e.info = some v) (hz : Alloc.NonZero v) (hme : env.me ∈ cbs) (hk : Alloc.Keyed s.table)
    (hb : ∀ w, Belongs s.table e.nodeId w → w = v) :
    Belongs ((cbs.map (Monitor.MEv.called · .infoUpdate e)).foldl (tell env wall) s).table e.nodeId v := by
  induction cbs generalizing s with
  | nil => cases hme
  | cons cb cbs ih =>
    rw [List.map_cons, List.foldl_cons]
    by_cases hc : cb = env.me
    · subst hc
      refine (keeps_fold wall _ _).belongs ((keeps_tell wall s _).keyed hk) _ _ hz ?_
      simp only [tell, ne_eq, reduceCtorEq, not_false_eq_true, and_self, if_true, Alloc.onMonitorEvent, modify_run, hv]
      split
      · exact belongs_set_self hz
      · rename_i h
        cases hg : s.table.getUniqueId e.nodeId with
        | none => exact absurd hg h
        | some w =>
          have := hb w ((belongs_iff hk).2 hg)
          subst this
          exact (belongs_iff hk).2 hg
    · have : tell env wall s (.called cb .infoUpdate e) = s := by simp [tell, hc]
      rw [this]
      exact ih s ((List.mem_cons.1 hme).resolve_left (Ne.symm hc)) hk hb

/-- A grant is of an ID that nobody is known under, or that belongs to the device. -/
theorem grant_case {s : Sys} {op : Op} {i : Nat} {u : List Byte} (h : Grant env s op i u) :
    (∃ rx now wall, op = .alloc rx now wall) ∧ Monitor.allDiscovered s.mon = true ∧
      (s.srv.table.isKnown i = false ∨ Belongs s.srv.table i u) := by
  obtain ⟨a, h, rfl, rfl⟩ := h
  have hno : ∀ l : List Alloc.Allocation, l ≠ l ++ [a] := fun l hl => by simp at hl
  cases op with
  | monitor op wall =>
    exfalso
    have : ∀ (evs : List Monitor.MEv) (srv : Alloc.Server), (evs.foldl (tell env wall) srv).sent = srv.sent := by
      intro evs
      induction evs with
      | nil => intro srv; rfl
      | cons ev evs ih =>
        intro srv
        rw [List.foldl_cons, ih]
        cases ev with
        | called cb kind e =>
          simp only [tell, Alloc.onMonitorEvent, modify_run]
          split
          · split <;> rfl
          · rfl
        | request => rfl
    rw [step] at h
    simp only [this] at h
    exact hno _ h
  | alloc rx now wall =>
    refine ⟨⟨rx, now, wall, rfl⟩, ?_, Alloc.C39_moment env.alloc s.srv (.alloc rx (Monitor.allDiscovered s.mon) now wall) a h⟩
    have hc := Alloc.step_case env.alloc s.srv (.alloc rx (Monitor.allDiscovered s.mon) now wall)
    have h' : Alloc.grants (Alloc.step env.alloc s.srv (.alloc rx (Monitor.allDiscovered s.mon) now wall)).sent =
      Alloc.grants s.srv.sent ++ [a] := h
    cases hc with
    | quiet ht hg => exact absurd (hg.symm.trans h') (hno _)
    | monitor n u wall hop hu ht hg => cases hop
    | grant rx' now' wall' u i hop => injection hop

/-! ## The server and the monitor -/

/-- What holds while both run. -/
structure Inv (env : Env) (s : Sys) : Prop where
  reg : Monitor.RInv s.mon
  keyed : Alloc.Keyed s.srv.table
  here : env.me ∈ s.mon.callbacks
  known : ∀ k e, s.mon.registry.get? k = some e → s.srv.table.isKnown k = true

theorem fold_start_known (known : List (Nat × Option (List Byte))) (wall : Int) (t : Alloc.Table) (i : Nat)
    (h : t.isKnown i = true ∨ i ∈ known.map (·.1)) :
    (known.foldl (fun t x => t.set x.2 x.1 wall) t).isKnown i = true := by
  induction known generalizing t with
  | nil => simpa using h
  | cons x known ih =>
    refine ih _ ?_
    rcases h with h | h
    · exact .inl (isKnown_set (.inl h))
    · rcases List.mem_cons.1 h with h | h
      · exact .inl (isKnown_set (.inr h))
      · exact .inr h

/-- The callbacks of the monitor change only when one is added or removed. -/
theorem step_callbacks (menv : Monitor.MEnv) {s : Monitor.Mon} (h : Monitor.RInv s) (op : Monitor.Op) {me : Nat}
    (hm : me ∈ s.callbacks) (hr : op ≠ .removeHandler me) : me ∈ (Monitor.step menv s op).callbacks := by
  cases op with
  | status m a =>
    rcases Monitor.status_spec menv m a s h.ok with hg | ⟨e0, new, evs1, evs2, rs, e2, hf, -⟩
    · obtain ⟨-, -, -, h1, -⟩ := hg
      exact h1 ▸ hm
    · exact hf.cbs ▸ hm
  | info m =>
    rcases Monitor.info_spec menv m s h.ok with hg | ⟨e0, new, evs1, evs2, hf, -⟩
    · obtain ⟨-, -, -, h1, -⟩ := hg
      exact h1 ▸ hm
    · exact hf.cbs ▸ hm
  | infoTimeout => exact hm
  | sweep =>
    obtain ⟨keep, r, evs, c, h1, -⟩ := Monitor.removeStale_spec (env := menv) s h.ok
    simp only [Monitor.step, h1]
    exact hm
  | get nid =>
    have hc := Monitor.getEntry_case menv nid s h.ok
    simp only [Monitor.step]
    generalize Monitor.getEntry menv nid s = x at hc
    cases hc <;> exact hm
  | addHandler cb => exact List.mem_append_left _ hm
  | removeHandler cb => exact (List.mem_erase_of_ne fun h => hr (by rw [h])).2 hm

/-- An entry that is listed after an operation was listed before, or the server was told of it. -/
theorem step_listed (menv : Monitor.MEnv) (hn : Monitor.NoRaise menv) {s : Monitor.Mon} (h : Monitor.RInv s)
    (op : Monitor.Op) {me : Nat} (hm : me ∈ s.callbacks)
    (hread : ∀ m, op = .info m → m.body ≠ none ∧ m.nameOk = true) (k : Nat) (e : Monitor.Entry)
    (hl : (Monitor.step menv s op).registry.get? k = some e) :
    (∃ e', s.registry.get? k = some e') ∨
    ∃ kind e', kind ≠ Monitor.Kind.offline ∧ e'.nodeId = k ∧
      Monitor.MEv.called me kind e' ∈ (Monitor.step menv s op).trace.drop s.trace.length := by
  cases op with
  | status m a =>
    rcases Monitor.status_spec menv m a s h.ok with hg | ⟨e0, new, evs1, evs2, rs, e2, hf, hg, ht, h3, h4, h5, -⟩
    · exact absurd hn hg.1
    · by_cases hk : k = m.src
      · subst hk
        cases new with
        | false => exact .inl ⟨_, (hf.old rfl).1⟩
        | true =>
          refine .inr ⟨.new, e0.updateFromStatus m, (fun h => nomatch h), (Monitor.updateFromStatus_parts e0 m).2.1, ?_⟩
          rw [Monitor.step, ht, List.drop_left, h5 rfl hn]
          exact List.mem_append_left _ (List.mem_append_right _ (List.mem_map.2 ⟨me, hm, rfl⟩))
      · left
        rw [Monitor.step, hf.others k hk] at hl
        exact ⟨e, hl⟩
  | info m =>
    rcases Monitor.info_spec menv m s h.ok with hg | ⟨e0, new, evs1, evs2, hf, hg, ht, h3, h4, h5⟩
    · exact absurd hn hg.1
    · by_cases hk : k = m.src
      · subst hk
        obtain ⟨hb, hnm⟩ := hread m rfl
        refine .inr ⟨.infoUpdate, Monitor.afterInfo e0 m, (fun h => nomatch h), (Monitor.afterInfo_parts e0 m).2.1, ?_⟩
        rw [Monitor.step, ht, List.drop_left, h5 hb hnm hn]
        exact List.mem_append_right _ (List.mem_map.2 ⟨me, hm, rfl⟩)
      · left
        rw [Monitor.step, hf.others k hk] at hl
        exact ⟨e, hl⟩
  | infoTimeout => exact .inl ⟨e, hl⟩
  | sweep =>
    obtain ⟨keep, r, evs, c, h1, -⟩ := Monitor.removeStale_spec (env := menv) s h.ok
    simp only [Monitor.step, h1, Monitor.get?_filter h.ok] at hl
    split at hl
    · exact .inl ⟨e, hl⟩
    · cases hl
  | get nid =>
    left
    have hc := Monitor.getEntry_case menv nid s h.ok
    simp only [Monitor.step] at hl
    generalize Monitor.getEntry menv nid s = x at hc hl
    cases hc with
    | absent => exact ⟨e, hl⟩
    | fresh => exact ⟨e, hl⟩
    | stale e' evs hg hf hx hn =>
      simp only [Dict.get?_del h.ok] at hl
      split at hl
      · cases hl
      · exact ⟨e, hl⟩
    | raised => exact ⟨e, hl⟩
  | addHandler cb => exact .inl ⟨e, hl⟩
  | removeHandler cb => exact .inl ⟨e, hl⟩

theorem start_inv (env : Env) (c : Clock) (pre : List Monitor.Op) (loaded : Alloc.Table) (nodeId : Nat)
    (uid : List Byte) (wall : Int) (hk : Alloc.Keyed loaded) : Inv env (history env c pre loaded nodeId uid wall []) := by
  have hr := Monitor.run_rinv (env := env.mon) (Monitor.init_rinv c) pre
  simp only [history, run, List.foldl_nil, create]
  generalize Monitor.run env.mon (Monitor.init c) pre = mon at hr
  refine ⟨Monitor.step_rinv (env := env.mon) hr (.addHandler env.me), Alloc.C39_start _ hk _ _ _ _, List.mem_append_right _ (List.mem_singleton.2 rfl), ?_⟩
  intro k e hl
  refine fold_start_known _ _ _ _ (.inr ?_)
  have hl' : mon.registry.get? k = some e := hl
  refine List.mem_map.2 ⟨(e.nodeId, e.info), List.mem_map.2 ⟨(k, e), ?_, rfl⟩, hr.nid k e hl'⟩
  exact (Dict.mem_iff_get? hr.ok _ _).2 hl'

theorem step_inv (hn : Monitor.NoRaise env.mon) {s : Sys} (h : Inv env s) (op : Op)
    (hs : Stays env [op]) (hread : Readable [op]) : Inv env (step env s op) := by
  cases op with
  | monitor op wall =>
    have hop : op ≠ .removeHandler env.me := fun hop => hs wall (by rw [hop]; exact List.mem_singleton.2 rfl)
    refine ⟨Monitor.step_rinv h.reg op, (keeps_sys s (.monitor op wall)).keyed h.keyed,
      step_callbacks env.mon h.reg op h.here hop, ?_⟩
    intro k e hl
    rcases step_listed env.mon hn h.reg op h.here
      (fun m hm => hread m wall (by rw [hm]; exact List.mem_singleton.2 rfl)) k e hl with ⟨e', h1⟩ | ⟨kind, e', h1, h2, h3⟩
    · exact (keeps_sys s (.monitor op wall)).known _ (h.known k e' h1)
    · rw [← h2]
      exact fold_known wall s.srv _ kind e' h1 h3
  | alloc rx now wall =>
    have hk := keeps_sys (env := env) s (.alloc rx now wall)
    exact ⟨h.reg, hk.keyed h.keyed, h.here, fun k e hl => hk.known k (h.known k e hl)⟩

theorem run_inv (hn : Monitor.NoRaise env.mon) {s : Sys} (h : Inv env s) (ops : List Op)
    (hs : Stays env ops) (hread : Readable ops) : Inv env (run env s ops) := by
  induction ops generalizing s with
  | nil => exact h
  | cons op ops ih =>
    refine ih (step_inv hn h op ?_ ?_) (fun w hw => hs w (List.mem_cons_of_mem _ hw))
      (fun m w hw => hread m w (List.mem_cons_of_mem _ hw))
    · exact fun w hw => hs w (List.mem_cons.2 (.inl (List.mem_singleton.1 hw)))
    · exact fun m w hw => hread m w (List.mem_cons.2 (.inl (List.mem_singleton.1 hw)))

/-- If all GetNodeInfo transfers are responses with a readable name and no callback raises, then the ID of a listed node
is granted only to the device to which the table says it belongs. -/
theorem C120_known_partial (env : Env) (c : Clock) (pre : List Monitor.Op) (loaded : Alloc.Table) (nodeId : Nat)
    (uid : List Byte) (wall : Int) (ops : List Op) (op : Op) (i : Nat) (u : List Byte) (e : Monitor.Entry)
    (hn : Monitor.NoRaise env.mon) (hk : Alloc.Keyed loaded) (hs : Stays env ops) (hread : Readable ops)
    (hg : Grant env (history env c pre loaded nodeId uid wall ops) op i u)
    (hl : (history env c pre loaded nodeId uid wall ops).mon.registry.get? i = some e) :
    Belongs (history env c pre loaded nodeId uid wall ops).srv.table i u := by
  have hi : Inv env (history env c pre loaded nodeId uid wall ops) :=
    run_inv hn (start_inv env c pre loaded nodeId uid wall hk) ops hs hread
  rcases (grant_case hg).2.2 with h | h
  · rw [hi.known i e hl] at h; cases h
  · exact h

/-- While there is a listed node that has not told its unique ID and may still be asked, nothing is granted. -/
theorem C120_discovered (s : Sys) (op : Op) (i : Nat) (u : List Byte) (hok : s.mon.registry.Ok) (hg : Grant env s op i u)
    (k : Nat) (e : Monitor.Entry) (hl : s.mon.registry.get? k = some e) : e.info ≠ none ∨ e.retries = 0 := by
  have h := (grant_case hg).2.1
  simp only [Monitor.allDiscovered, beq_iff_eq, List.length_eq_zero_iff, List.filter_eq_nil_iff] at h
  have := h (k, e) ((Dict.mem_iff_get? hok _ _).2 hl)
  simp only [Monitor.Entry.discovered, Bool.not_eq_true', Bool.not_eq_false, Bool.or_eq_true, beq_iff_eq] at this
  rcases this with this | this
  · exact .inl fun h => by rw [h] at this; cases this
  · exact .inr this

/-- Once the table says that an ID belongs to a device, it is granted to no other, whatever happens. -/
theorem C120_owner (s : Sys) (hk : Alloc.Keyed s.srv.table) (i : Nat) (w : List Byte) (hw : Alloc.NonZero w)
    (hb : Belongs s.srv.table i w) (ops : List Op) (op : Op) (u : List Byte) (hg : Grant env (run env s ops) op i u) :
    u = w := by
  have hr := keeps_run (env := env) s ops
  have hb' := hr.belongs hk i w hw hb
  rcases (grant_case hg).2.2 with h | h
  · obtain ⟨r, h1, h2, -⟩ := hb'
    rw [Alloc.isKnown_iff.2 ⟨r, h1, h2⟩] at h; cases h
  · exact belongs_unique (hr.keyed hk) h hb'

/-- What an info response does to the table. -/
theorem info_belongs (hn : Monitor.NoRaise env.mon) {s : Sys} (hr : Monitor.RInv s.mon) (hk : Alloc.Keyed s.srv.table)
    (hme : env.me ∈ s.mon.callbacks) (m : Monitor.InfoMsg) (wall : Int) (up : Nat) (v : List Byte)
    (hb : m.body = some (up, v)) (hnm : m.nameOk = true) (hz : Alloc.NonZero v)
    (hfree : ∀ w, Belongs s.srv.table m.src w → w = v) :
    Belongs (step env s (.monitor (.info m) wall)).srv.table m.src v ∧
    ∃ e, (step env s (.monitor (.info m) wall)).mon.registry.get? m.src = some e ∧ e.info = some v := by
  rcases Monitor.info_spec env.mon m s.mon hr.ok with hg | ⟨e0, new, evs1, evs2, hf, hg, ht, -, -, h5⟩
  · exact absurd hn hg.1
  · have hev : ∀ x ∈ evs1, ∃ cb e, x = Monitor.MEv.called cb .offline e := by
      cases new with
      | false => rw [(hf.old rfl).2.2.2]; intro x hx; cases hx
      | true =>
        rcases (hf.fresh rfl).2.2 with ⟨-, h⟩ | ⟨e, -, -, h, -⟩
        · rw [h]; intro x hx; cases hx
        · intro x hx
          obtain ⟨cb, hcb⟩ := h x hx
          exact ⟨cb, e, hcb⟩
    have hid := (Monitor.afterInfo_parts e0 m).2.1
    have hinf : (Monitor.afterInfo e0 m).info = some v := by simp only [Monitor.afterInfo, hb]
    refine ⟨?_, _, hg, hinf⟩
    simp only [step, Monitor.step, ht, List.drop_left, List.foldl_append]
    rw [fold_offline wall s.srv evs1 hev, h5 (by simp [hb]) hnm hn]
    have := fold_report (env := env) wall s.srv s.mon.callbacks (Monitor.afterInfo e0 m) v hinf hz hme hk (by rwa [hid])
    rwa [hid] at this

/-- When a node whose ID belongs to nobody tells its unique ID, then from that time on the ID is granted to no other. -/
theorem C120_reported_partial (env : Env) (c : Clock) (pre : List Monitor.Op) (loaded : Alloc.Table)
    (nodeId : Nat) (uid : List Byte) (wall : Int) (ops : List Op) (m : Monitor.InfoMsg) (wall' : Int) (up : Nat)
    (v : List Byte) (hn : Monitor.NoRaise env.mon) (hk : Alloc.Keyed loaded)
    (hme : env.me ∈ (history env c pre loaded nodeId uid wall ops).mon.callbacks) (hb : m.body = some (up, v))
    (hnm : m.nameOk = true) (hz : Alloc.NonZero v)
    (hfree : ∀ w, ¬ Belongs (history env c pre loaded nodeId uid wall ops).srv.table m.src w) (ops' : List Op) (op : Op)
    (u : List Byte)
    (hg : Grant env (history env c pre loaded nodeId uid wall (ops ++ .monitor (.info m) wall' :: ops')) op m.src u) :
    u = v := by
  have hs : ∀ {s : Sys}, Monitor.RInv s.mon → ∀ ops : List Op, Monitor.RInv (run env s ops).mon := by
    intro s h ops
    induction ops generalizing s with
    | nil => exact h
    | cons op ops ih =>
      refine ih ?_
      cases op with
      | monitor op wall => exact Monitor.step_rinv h op
      | alloc => exact h
  have hi := start_inv env c pre loaded nodeId uid wall hk
  have hr : Monitor.RInv (history env c pre loaded nodeId uid wall ops).mon := hs hi.reg ops
  have hkk : Alloc.Keyed (history env c pre loaded nodeId uid wall ops).srv.table :=
    (keeps_run (env := env) _ ops).keyed hi.keyed
  have h1 := (info_belongs hn hr hkk hme m wall' up v hb hnm hz (fun w hw => absurd hw (hfree w))).1
  refine C120_owner (env := env) (step env (history env c pre loaded nodeId uid wall ops) (.monitor (.info m) wall'))
    ((keeps_sys _ _).keyed hkk) m.src v hz h1 ops' op u ?_
  rw [history, run_append] at hg
  exact hg

/-! ## Without conflicts -/

/-- What the listed nodes have told, the table knows. -/
def Told (s : Sys) : Prop :=
  ∀ k e v, s.mon.registry.get? k = some e → e.info = some v → Alloc.NonZero v ∧ Belongs s.srv.table k v

theorem updateFromStatus_info (e : Monitor.Entry) (m : Monitor.Status) :
    (e.updateFromStatus m).info = e.info ∨ (e.updateFromStatus m).info = none := by
  simp only [Monitor.Entry.updateFromStatus]
  cases e.uptime with
  | none => exact .inl rfl
  | some u => dsimp only; split
              · exact .inr rfl
              · exact .inl rfl

theorem told_step (hn : Monitor.NoRaise env.mon) {s : Sys} (h : Inv env s) (ht : Told s) (op : Op)
    (hread : Readable [op])
    (hh : ∀ m wall up v, op = .monitor (.info m) wall → m.body = some (up, v) →
      Alloc.NonZero v ∧ ∀ w, Belongs s.srv.table m.src w → w = v) : Told (step env s op) := by
  have hkp := keeps_sys (env := env) s op
  have keep : ∀ {k e v}, s.mon.registry.get? k = some e → e.info = some v →
      Alloc.NonZero v ∧ Belongs (step env s op).srv.table k v := fun hl hv =>
    ⟨(ht _ _ _ hl hv).1, hkp.belongs h.keyed _ _ (ht _ _ _ hl hv).1 (ht _ _ _ hl hv).2⟩
  intro k e v hl hv
  cases op with
  | alloc rx now wall => exact keep hl hv
  | monitor op wall =>
    cases op with
    | status m a =>
      rcases Monitor.status_spec env.mon m a s.mon h.reg.ok with hg | ⟨e0, new, evs1, evs2, rs, e2, hf, hg, -, -, -, -, he⟩
      · exact absurd hn hg.1
      · by_cases hk : k = m.src
        · subst hk
          have he2 : e = e2 := Option.some.inj (hl.symm.trans hg)
          have hinf : e.info = (e0.updateFromStatus m).info := by
            rcases he with ⟨-, h1, -⟩ | ⟨-, -, h1⟩ <;> rw [he2, h1]
          have hinf : e0.info = some v := by
            rcases updateFromStatus_info e0 m with h1 | h1
            · rw [← h1, ← hinf, hv]
            · rw [hinf, h1] at hv; cases hv
          cases new with
          | false => exact keep (hf.old rfl).1 hinf
          | true => rw [(hf.fresh rfl).1] at hinf; cases hinf
        · have hl' : (Monitor.onNodeStatus env.mon m a s.mon).2.registry.get? k = some e := hl
          rw [hf.others k hk] at hl'
          exact keep hl' hv
    | info m =>
      by_cases hk : k = m.src
      · subst hk
        obtain ⟨hb, hnm⟩ := hread m wall (List.mem_singleton.2 rfl)
        cases hb' : m.body with
        | none => exact absurd hb' hb
        | some b =>
          obtain ⟨up, v'⟩ := b
          obtain ⟨hz, hw⟩ := hh m wall up v' rfl hb'
          obtain ⟨h1, e', h2, h3⟩ := info_belongs hn h.reg h.keyed h.here m wall up v' hb' hnm hz hw
          have he : e = e' := Option.some.inj (hl.symm.trans h2)
          have hv' : v = v' := Option.some.inj (hv.symm.trans (he ▸ h3))
          subst hv'
          exact ⟨hz, h1⟩
      · rcases Monitor.info_spec env.mon m s.mon h.reg.ok with hg | ⟨e0, new, evs1, evs2, hf, -⟩
        · exact absurd hn hg.1
        · have hl' : (Monitor.onInfoResponse env.mon m s.mon).2.registry.get? k = some e := hl
          rw [hf.others k hk] at hl'
          exact keep hl' hv
    | infoTimeout => exact keep hl hv
    | sweep =>
      obtain ⟨kp, r, evs, c, h1, -⟩ := Monitor.removeStale_spec (env := env.mon) s.mon h.reg.ok
      have hl' : (Monitor.removeStale env.mon s.mon).2.registry.get? k = some e := hl
      simp only [h1, Monitor.get?_filter h.reg.ok] at hl'
      split at hl'
      · exact keep hl' hv
      · cases hl'
    | get nid =>
      have hc := Monitor.getEntry_case env.mon nid s.mon h.reg.ok
      have hl' : (Monitor.getEntry env.mon nid s.mon).2.registry.get? k = some e := hl
      generalize Monitor.getEntry env.mon nid s.mon = x at hc hl'
      cases hc with
      | absent => exact keep hl' hv
      | fresh => exact keep hl' hv
      | stale e' evs hg hf hx hn =>
        simp only [Dict.get?_del h.reg.ok] at hl'
        split at hl'
        · cases hl'
        · exact keep hl' hv
      | raised => exact keep hl' hv
    | addHandler cb => exact keep hl hv
    | removeHandler cb => exact keep hl hv

theorem told_run (hn : Monitor.NoRaise env.mon) {s : Sys} (h : Inv env s) (ht : Told s) (ops : List Op)
    (hs : Stays env ops) (hread : Readable ops) (hh : Honest env s ops) :
    Inv env (run env s ops) ∧ Told (run env s ops) := by
  induction ops generalizing s with
  | nil => exact ⟨h, ht⟩
  | cons op ops ih =>
    have hs1 : Stays env [op] := fun w hw => hs w (List.mem_cons.2 (.inl (List.mem_singleton.1 hw)))
    have hr1 : Readable [op] := fun m w hw => hread m w (List.mem_cons.2 (.inl (List.mem_singleton.1 hw)))
    exact ih (step_inv hn h op hs1 hr1) (told_step hn h ht op hr1 hh.1) (fun w hw => hs w (List.mem_cons_of_mem _ hw))
      (fun m w hw => hread m w (List.mem_cons_of_mem _ hw)) hh.2

theorem fold_start_belongs (known : List (Nat × Option (List Byte))) (wall : Int) (t : Alloc.Table) (i : Nat)
    (v : List Byte) (hz : Alloc.NonZero v) (hnd : (known.map (·.1)).Nodup)
    (h : (i, some v) ∈ known ∨ (Belongs t i v ∧ i ∉ known.map (·.1))) :
    Belongs (known.foldl (fun t x => t.set x.2 x.1 wall) t) i v := by
  induction known generalizing t with
  | nil =>
    rcases h with h | h
    · cases h
    · exact h.1
  | cons x known ih =>
    rw [List.map_cons, List.nodup_cons] at hnd
    refine ih _ hnd.2 ?_
    rcases h with h | ⟨h, h'⟩
    · rcases List.mem_cons.1 h with h | h
      · subst h
        exact .inr ⟨belongs_set_self hz, hnd.1⟩
      · exact .inl h
    · rw [List.map_cons, List.mem_cons, not_or] at h'
      exact .inr ⟨belongs_set_ne h h'.1, h'.2⟩

theorem start_told (env : Env) (c : Clock) (pre : List Monitor.Op) (loaded : Alloc.Table) (nodeId : Nat)
    (uid : List Byte) (wall : Int)
    (hz : ∀ k e v, (Monitor.run env.mon (Monitor.init c) pre).registry.get? k = some e → e.info = some v →
      Alloc.NonZero v) : Told (history env c pre loaded nodeId uid wall []) := by
  have hr := Monitor.run_rinv (env := env.mon) (Monitor.init_rinv c) pre
  simp only [history, run, List.foldl_nil, create]
  generalize Monitor.run env.mon (Monitor.init c) pre = mon at hr hz
  intro k e v hl hv
  have hl' : mon.registry.get? k = some e := hl
  refine ⟨hz k e v hl' hv, fold_start_belongs _ _ _ _ _ (hz k e v hl' hv) ?_ (.inl ?_)⟩
  · rw [List.map_map]
    have : mon.registry.map ((fun x => x.1) ∘ fun x => (x.2.nodeId, x.2.info)) = mon.registry.map (·.1) := by
      refine List.map_congr_left fun x hx => ?_
      exact hr.nid x.1 x.2 ((Dict.mem_iff_get? hr.ok _ _).1 hx)
    rw [this]
    exact hr.ok
  · refine List.mem_map.2 ⟨(k, e), (Dict.mem_iff_get? hr.ok _ _).2 hl', ?_⟩
    simp only [hr.nid k e hl', hv]

/-- The statement holds as long as all GetNodeInfo transfers are responses with a readable name, and no device reports its
unique ID under a node ID that the table says belongs to another. -/
theorem C120_honest_partial (env : Env) (c : Clock) (pre : List Monitor.Op) (loaded : Alloc.Table) (nodeId : Nat)
    (uid : List Byte) (wall : Int) (ops : List Op) (op : Op) (i : Nat) (u : List Byte) (e : Monitor.Entry)
    (hn : Monitor.NoRaise env.mon) (hk : Alloc.Keyed loaded) (hs : Stays env ops) (hread : Readable ops)
    (hz : ∀ k e v, (Monitor.run env.mon (Monitor.init c) pre).registry.get? k = some e → e.info = some v →
      Alloc.NonZero v)
    (hh : Honest env (history env c pre loaded nodeId uid wall []) ops)
    (hg : Grant env (history env c pre loaded nodeId uid wall ops) op i u)
    (hl : (history env c pre loaded nodeId uid wall ops).mon.registry.get? i = some e) :
    Belongs (history env c pre loaded nodeId uid wall ops).srv.table i u ∧ ∀ v, e.info = some v → v = u := by
  have hb := C120_known_partial env c pre loaded nodeId uid wall ops op i u e hn hk hs hread hg hl
  obtain ⟨hi, ht⟩ : Inv env (history env c pre loaded nodeId uid wall ops) ∧
      Told (history env c pre loaded nodeId uid wall ops) :=
    told_run hn (start_inv env c pre loaded nodeId uid wall hk) (start_told env c pre loaded nodeId uid wall hz) ops hs
      hread hh
  exact ⟨hb, fun v hv => belongs_unique hi.keyed (ht i e v hl hv).2 hb⟩

/-! ## The counterexamples -/

/-- Surroundings in which time stands still and nothing raises. -/
def still : Env := { mon := { adv := fun _ => 0, offline := 3000000 }, alloc := { timeout := 500000 }, me := 7 }

/-- The first two messages of the handshake of the device with the unique ID x, x, ..., x. -/
def asking (x : Byte) : List Op :=
  [.alloc ⟨0, 0, ⟨true, 0, List.replicate 6 x⟩⟩ 0 0, .alloc ⟨0, 0, ⟨false, 0, List.replicate 6 x⟩⟩ 0 0]

/-- The last message of the handshake. -/
def last (x : Byte) (req : Nat) : Op := .alloc ⟨0, 0, ⟨false, req, List.replicate 4 x⟩⟩ 0 0

/-- The device with the unique ID x, x, ..., x appears under the node ID n. -/
def appears (n : Nat) (x : Byte) : List Op :=
  [.monitor (.status ⟨n, 0, 1⟩ false) 0, .monitor (.info ⟨n, 0, some (1, List.replicate 16 x), true⟩) 0]

/-- The state after a history with no past. -/
def after (ops : List Op) : Sys := history still ⟨0, 0⟩ [] [] 126 (List.replicate 16 9) 0 ops

theorem grant_of (ops : List Op) (op : Op) (i : Nat) (u : List Byte)
    (h : Alloc.grants (step still (after ops) op).srv.sent =
      Alloc.grants (after ops).srv.sent ++ [{ first := false, nodeId := i, uid := u }]) :
    Grant still (after ops) op i u := ⟨_, h, rfl, rfl⟩

theorem still_silent : Monitor.NoRaise still.mon := fun _ _ => rfl

/-- The statement is false: the device 1 gets the node ID 125; then the device 2 appears under 125 and tells its unique
ID, which the server does not enter, since 125 is taken; the device 1 asks again and gets 125, which the device 2 uses. -/
theorem C120_counterexample : ¬ C120_statement := by
  intro h
  have h1 := (h still ⟨0, 0⟩ [] [] 126 (List.replicate 16 9) 0
    (asking 1 ++ [last 1 0] ++ appears 125 2 ++ asking 1) (last 1 0) 125 (List.replicate 16 1)
    { serial := 0, nodeId := 125, uptime := some 1, info := some (List.replicate 16 2) } still_silent
    List.nodup_nil (by intro w hw; simp [asking, appears, last] at hw)
    (grant_of _ _ _ _ (by decide +kernel)) (by decide +kernel)).2 (List.replicate 16 2) rfl
  exact absurd h1 (by decide)

/-- Nor is it only a matter of devices in conflict: the server does not hear of a node that was first seen sending a
GetNodeInfo request (or a response with an unreadable name). If it never answers and is not heard from again, its ID
is granted as soon as somebody asks for it. Here the first message of the node 50 is such a response, in which the device 2
tells its unique ID, and the device 1 asks for the ID 50. -/
theorem C120_unheard : ∃ (ops : List Op) (e : Monitor.Entry), Stays still ops ∧
    Grant still (after ops) (last 1 50) 50 (List.replicate 16 1) ∧ (after ops).mon.registry.get? 50 = some e ∧
    e.info = some (List.replicate 16 2) ∧ (after ops).srv.table.isKnown 50 = false :=
  ⟨[.monitor (.info ⟨50, 0, some (1, List.replicate 16 2), false⟩) 0] ++ asking 1,
    { serial := 0, nodeId := 50, uptime := some 1, info := some (List.replicate 16 2) },
    (by intro w hw; simp [asking] at hw), grant_of _ _ _ _ (by decide +kernel), by decide +kernel, rfl,
    by decide +kernel⟩

/-! ## Examples -/

/-- The device 2 appears under 125, then the device 1 asks and gets 124; then the device 2 asks and gets 125. -/
example : (after (appears 125 2 ++ asking 1 ++ [last 1 125] ++ asking 2 ++ [last 2 0])).srv.sent.map (·.nodeId) =
    [0, 0, 124, 0, 0, 125] := by decide +kernel

/-- The hypotheses of `C120_honest_partial` can be met, with a listed node whose ID is granted (to itself). -/
example : Readable (appears 125 2 ++ asking 2) ∧ Honest still (after []) (appears 125 2 ++ asking 2) ∧
    Grant still (after (appears 125 2 ++ asking 2)) (last 2 0) 125 (List.replicate 16 2) ∧
    (after (appears 125 2 ++ asking 2)).mon.registry.get? 125 =
      some { serial := 0, nodeId := 125, uptime := some 1, info := some (List.replicate 16 2) } := by
  refine ⟨?_, ⟨?_, ?_, ?_, ?_, trivial⟩, grant_of _ _ _ _ (by decide +kernel), by decide +kernel⟩
  · intro m wall h
    simp only [appears, asking, List.mem_append, List.mem_cons, Op.monitor.injEq, reduceCtorEq, false_and,
      Monitor.Op.info.injEq, List.not_mem_nil, or_false, false_or] at h
    rw [h.1]
    exact ⟨by simp, rfl⟩
  · intro m wall up v h; simp at h
  · intro m wall up v h hb
    have hm : m = ⟨125, 0, some (1, List.replicate 16 2), true⟩ := by
      injection h with h1; injection h1 with h1; exact h1.symm
    subst hm
    have hv : v = List.replicate 16 2 := by simpa using (congrArg Prod.snd (Option.some.inj hb)).symm
    subst hv
    refine ⟨by decide, ?_⟩
    rintro w ⟨r, hr, h1, h2⟩
    have : ∀ r ∈ (step still (after []) (.monitor (.status ⟨125, 0, 1⟩ false) 0)).srv.table,
        r.nodeId = 125 → r.uid = none := by decide +kernel
    rw [this r hr h1] at h2
    cases h2
  · intro m wall up v h; simp at h
  · intro m wall up v h; simp at h

/-- An unanswered node blocks all allocation. -/
example : (after ([.monitor (.status ⟨50, 0, 1⟩ false) 0] ++ asking 1 ++ [last 1 0])).srv.sent = [] := by decide +kernel

end AllocSys
end Dronecan
