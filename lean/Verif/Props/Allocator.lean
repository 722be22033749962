import Verif.Model.Allocator

/-!
# The dynamic node ID allocation server (C39, C40, C41, C42)
-/

namespace Dronecan
namespace Alloc
open PyM

variable (env : AEnv)

/-! ## Specification -/

/-- The grants among the broadcast messages: those that carry a node ID. -/
def grants (sent : List Allocation) : List Allocation := sent.filter (·.nodeId != 0)

/-- The node IDs granted to the device `u`. -/
def grantsTo (u : List Byte) (sent : List Allocation) : List Nat := ((grants sent).filter (·.uid == u)).map (·.nodeId)

/-- Node IDs are a key of the table (the database enforces it). -/
def Keyed (t : Table) : Prop := (t.map (·.nodeId)).Nodup

/-- A unique ID that is not all zeros. -/
def NonZero (u : List Byte) : Prop := ∃ b ∈ u, b ≠ 0

instance (u : List Byte) : Decidable (NonZero u) := inferInstanceAs (Decidable (∃ b ∈ u, b ≠ 0))

/-- Does a monitor event report the device `u` under the node ID `n`? -/
def reports (u : List Byte) (n : Nat) : Op → Prop
  | .monitor n' u' _ => n' = n ∧ u' = some u
  | _ => False

/-- Does the message fit what has been collected so far: the second six bytes, or the last four? -/
def Fits (q : List Byte) (u : List Byte) : Prop := (u.length = 6 ∧ q.length = 6) ∨ (u.length = 4 ∧ q.length = 12)

/-- `Collected env ops q t`: in the history `ops`, the parts that anonymous nodes sent since the last first-part message
make up `q`; the last of them has timestamp `t`; and every message was handled within the follow-up timeout after the
part before. Only messages handled while all nodes were discovered count. -/
inductive Collected : List Op → List Byte → Int → Prop
  /-- A first part starts over. -/
  | first (ops : List Op) (rx : Rx) (now wall : Int) (hs : rx.src = 0) (hf : rx.msg.first = true) :
      Collected (ops ++ [.alloc rx true now wall]) rx.msg.uid rx.ts
  /-- A later part is added. -/
  | next (ops : List Op) (rx : Rx) (now wall : Int) (q : List Byte) (t : Int) (h : Collected ops q t) (hs : rx.src = 0)
      (hf : rx.msg.first = false) (hq : Fits q rx.msg.uid) (ht : now - t ≤ env.timeout) :
      Collected (ops ++ [.alloc rx true now wall]) (q ++ rx.msg.uid) rx.ts
  /-- A part that does not fit is ignored. -/
  | misfit (ops : List Op) (rx : Rx) (now wall : Int) (q : List Byte) (t : Int) (h : Collected ops q t) (hs : rx.src = 0)
      (hf : rx.msg.first = false) (hq : ¬ Fits q rx.msg.uid) (ht : now - t ≤ env.timeout) :
      Collected (ops ++ [.alloc rx true now wall]) q t
  /-- Messages of other allocators, and all messages while there are undiscovered nodes, are ignored. -/
  | ignored (ops : List Op) (rx : Rx) (d : Bool) (now wall : Int) (q : List Byte) (t : Int) (h : Collected ops q t)
      (hs : rx.src ≠ 0 ∨ d = false) : Collected (ops ++ [.alloc rx d now wall]) q t
  | monitor (ops : List Op) (n : Nat) (u : Option (List Byte)) (wall : Int) (q : List Byte) (t : Int)
      (h : Collected ops q t) : Collected (ops ++ [.monitor n u wall]) q t

/-! ## The table -/

theorem isZero_iff {u : List Byte} : isZero u = false ↔ NonZero u := by
  unfold isZero NonZero
  induction u with
  | nil => simp
  | cons a u ih =>
    simp only [List.length_cons, List.replicate_succ, List.cons_beq_cons, Bool.and_eq_false_iff, ih, List.mem_cons,
      exists_eq_or_imp, beq_eq_false_iff_ne]

theorem set_mem {t : Table} {u : Option (List Byte)} {i : Nat} {now : Int} {r : Row} :
    r ∈ t.set u i now ↔ (r ∈ t ∧ r.nodeId ≠ i) ∨ r = ⟨i, stored u, now⟩ := by
  simp [Table.set]

theorem keyed_set {t : Table} (h : Keyed t) (u : Option (List Byte)) (i : Nat) (now : Int) : Keyed (t.set u i now) := by
  unfold Keyed Table.set
  rw [List.map_append, List.nodup_append]
  refine ⟨(List.filter_sublist.map _).nodup h, List.nodup_cons.2 ⟨List.not_mem_nil, List.nodup_nil⟩, ?_⟩
  intro a ha b hb
  obtain ⟨r, hr, rfl⟩ := List.mem_map.1 ha
  have := (List.mem_filter.1 hr).2
  simp only [List.map_cons, List.map_nil, List.mem_singleton] at hb
  subst hb
  simpa using this

theorem keyed_inj {t : Table} (h : Keyed t) {r r' : Row} (hr : r ∈ t) (hr' : r' ∈ t) (hn : r.nodeId = r'.nodeId) :
    r = r' := by
  unfold Keyed at h
  induction t with
  | nil => cases hr
  | cons a t ih =>
    obtain ⟨h1, h2⟩ := List.nodup_cons.1 h
    rcases List.mem_cons.1 hr with e | h3 <;> rcases List.mem_cons.1 hr' with e' | h4
    · exact e.trans e'.symm
    · subst e; exact absurd (List.mem_map.2 ⟨r', h4, hn.symm⟩) h1
    · subst e'; exact absurd (List.mem_map.2 ⟨r, h3, hn⟩) h1
    · exact ih h2 h3 h4

theorem isKnown_iff {t : Table} {i : Nat} : t.isKnown i = true ↔ ∃ r ∈ t, r.nodeId = i := by
  simp only [Table.isKnown, decide_eq_true_eq, List.length_pos_iff_exists_mem, List.mem_filter, beq_iff_eq]

theorem getUniqueId_mem {t : Table} (h : Keyed t) {r : Row} (hr : r ∈ t) : t.getUniqueId r.nodeId = r.uid := by
  unfold Table.getUniqueId
  cases hf : t.find? (·.nodeId == r.nodeId) with
  | none =>
    have := List.find?_eq_none.1 hf r hr
    simp at this
  | some r' =>
    have h1 := List.mem_of_find?_eq_some hf
    have h2 := List.find?_some hf
    simp only [beq_iff_eq] at h2
    rw [keyed_inj h h1 hr h2]

theorem getNodeId_some {choose : List Row → Nat} {t : Table} {u : List Byte} {i : Nat}
    (h : t.getNodeId choose u = some i) : ∃ r ∈ t, r.nodeId = i ∧ r.uid = some u := by
  simp only [Table.getNodeId, Option.map_eq_some_iff] at h
  obtain ⟨r, h1, h2⟩ := h
  have h3 := List.mem_of_getElem? h1
  have h4 := (List.mem_filter.1 (List.mem_filter.1 h3).1)
  exact ⟨r, h4.1, h2, by simpa using h4.2⟩

theorem exists_latest (rows : List Row) (h : rows ≠ []) : ∃ r ∈ rows, ∀ r' ∈ rows, r'.ts ≤ r.ts := by
  induction rows with
  | nil => exact absurd rfl h
  | cons a rows ih =>
    by_cases hr : rows = []
    · subst hr; exact ⟨a, List.mem_cons_self, by simp⟩
    · obtain ⟨r, h1, h2⟩ := ih hr
      by_cases hle : a.ts ≤ r.ts
      · refine ⟨r, List.mem_cons_of_mem _ h1, fun r' hr' => ?_⟩
        rcases List.mem_cons.1 hr' with rfl | hr'
        · exact hle
        · exact h2 r' hr'
      · refine ⟨a, List.mem_cons_self, fun r' hr' => ?_⟩
        rcases List.mem_cons.1 hr' with rfl | hr'
        · exact Int.le_refl _
        · have := h2 r' hr'; omega

theorem getNodeId_isSome {choose : List Row → Nat} {t : Table} {u : List Byte} {r : Row} (hr : r ∈ t)
    (hu : r.uid = some u) : ∃ i, t.getNodeId choose u = some i := by
  have hmem : r ∈ t.filter (·.uid == some u) := List.mem_filter.2 ⟨hr, by simp [hu]⟩
  obtain ⟨m, h1, h2⟩ := exists_latest _ (List.ne_nil_of_mem hmem)
  simp only [Table.getNodeId]
  generalize hb : ((t.filter (·.uid == some u)).filter fun r =>
    (t.filter (·.uid == some u)).all fun r' => decide (r'.ts ≤ r.ts)) = best
  have hm : m ∈ best := by
    rw [← hb]
    exact List.mem_filter.2 ⟨h1, List.all_eq_true.2 fun r' hr' => by simpa using h2 r' hr'⟩
  have hpos : 0 < best.length := List.length_pos_of_mem hm
  have := Nat.mod_lt (choose best) hpos
  rw [List.getElem?_eq_getElem this]
  exact ⟨_, rfl⟩

/-! ## The choice of a node ID -/

theorem firstFree_some {t : Table} {ids : List Nat} {i : Nat} (h : firstFree t ids = some i) :
    i ∈ ids ∧ t.isKnown i = false := by
  have h1 := List.find?_some h
  exact ⟨List.mem_of_find?_eq_some h, by simpa using h1⟩

theorem mem_rangeUp {a b i : Nat} : i ∈ rangeUp a b ↔ a ≤ i ∧ i < b := by
  simp only [rangeUp, List.mem_map, List.mem_range]
  constructor
  · rintro ⟨k, h1, rfl⟩; omega
  · intro h; exact ⟨i - a, by omega, by omega⟩

theorem mem_rangeDown {a b i : Nat} : i ∈ rangeDown a b ↔ b < i ∧ i ≤ a := by
  simp only [rangeDown, List.mem_map, List.mem_range]
  constructor
  · rintro ⟨k, h1, rfl⟩; omega
  · intro h; exact ⟨a - i, by omega, by omega⟩

theorem orElse_some {a b : Option Nat} {i : Nat} (h : orElse a b = some i) : (a = some i ∧ i ≠ 0) ∨ b = some i := by
  unfold orElse at h
  split at h
  · exact .inl ⟨h, by injection h with h; omega⟩
  · exact .inr h

theorem chooseId_some {t : Table} {u : List Byte} {req i : Nat} (h : chooseId env t u req = some i) :
    i ≠ 0 ∧ (t.getNodeId env.choose u = some i ∨
      (t.isKnown i = false ∧ ((req ≠ 0 ∧ req ≤ i ∧ i < env.hi) ∨ (env.lo < i ∧ i ≤ env.hi)))) := by
  unfold chooseId at h
  rcases orElse_some h with ⟨h, h0⟩ | h
  · refine ⟨h0, ?_⟩
    rcases orElse_some h with ⟨h, -⟩ | h
    · split at h
      · rename_i hreq
        rcases orElse_some h with ⟨h, -⟩ | h
        · exact .inl h
        · obtain ⟨h1, h2⟩ := firstFree_some h
          have := mem_rangeUp.1 h1
          exact .inr ⟨h2, .inl ⟨hreq, this.1, this.2⟩⟩
      · exact .inl h
    · obtain ⟨h1, h2⟩ := firstFree_some h
      have := mem_rangeDown.1 h1
      exact .inr ⟨h2, .inr this⟩
  · cases h

theorem chooseId_known {t : Table} {u : List Byte} {req i : Nat} (h : t.getNodeId env.choose u = some i) (h0 : i ≠ 0) :
    chooseId env t u req = some i := by
  obtain ⟨n, rfl⟩ : ∃ n, i = n + 1 := ⟨i - 1, by omega⟩
  simp [chooseId, h, orElse]

/-! ## Steps -/

/-- The outcomes of a step. -/
inductive StepCase (s : Server) (op : Op) (s' : Server) : Prop
  /-- Nothing is granted and the table stays. -/
  | quiet (ht : s'.table = s.table) (hg : grants s'.sent = grants s.sent)
  /-- The table learns of a node. -/
  | monitor (n : Nat) (u : Option (List Byte)) (wall : Int) (hop : op = .monitor n u wall)
      (hu : s.table.getUniqueId n = none) (ht : s'.table = s.table.set u n wall) (hg : s'.sent = s.sent)
  /-- A node ID is granted. -/
  | grant (rx : Rx) (now wall : Int) (u : List Byte) (i : Nat) (hop : op = .alloc rx true now wall) (hsrc : rx.src = 0)
      (hfirst : rx.msg.first = false) (hlen : rx.msg.uid.length = 4) (hq : s.query.length = 12)
      (hu : u = s.query ++ rx.msg.uid) (htime : now - s.queryTs ≤ env.timeout)
      (hc : chooseId env s.table u rx.msg.nodeId = some i) (ht : s'.table = s.table.set (some u) i wall)
      (hg : s'.sent = s.sent ++ [{ first := false, nodeId := i, uid := u }])

theorem grants_snoc_zero (sent : List Allocation) (u : List Byte) (f : Bool) :
    grants (sent ++ [{ first := f, nodeId := 0, uid := u }]) = grants sent := by simp [grants]

theorem broadcast_eq (m : Allocation) (s : Server) : ∃ r, broadcast env m s = (r, { s with sent := s.sent ++ [m] }) ∧
    (env.raises (s.sent ++ [m]) = none → r = .ok ()) := by
  unfold broadcast
  dsimp only
  cases env.raises (s.sent ++ [m]) with
  | none => exact ⟨_, rfl, fun _ => rfl⟩
  | some e => exact ⟨_, rfl, fun h => by cases h⟩

theorem step_case (s : Server) (op : Op) : StepCase env s op (step env s op) := by
  cases op with
  | monitor n u wall =>
    simp only [step, onMonitorEvent, modify_run]
    split
    · rename_i h; exact .monitor n u wall rfl h rfl rfl
    · exact .quiet rfl rfl
  | alloc rx d now wall =>
    simp only [step, onAllocation]
    split
    · exact .quiet rfl rfl
    · rename_i hsrc
      have hsrc : rx.src = 0 := by simpa using hsrc
      split
      · exact .quiet rfl rfl
      · rename_i hd
        have hd : d = true := by simpa using hd
        subst hd
        simp only [bind_run, modify_run, get_run]
        generalize hs1 : (if 0 < s.query.length ∧ env.timeout < now - s.queryTs then { s with query := [] } else s) = s1
        have e1 : s1.table = s.table ∧ s1.sent = s.sent ∧
            (0 < s1.query.length → s1.query = s.query ∧ s1.queryTs = s.queryTs ∧ now - s.queryTs ≤ env.timeout) := by
          rw [← hs1]
          split
          · exact ⟨rfl, rfl, fun h => absurd h (by simp)⟩
          · rename_i hn
            exact ⟨rfl, rfl, fun h => ⟨rfl, rfl, by omega⟩⟩
        split
        · simp only [bind_run, modify_run]
          obtain ⟨r, h, -⟩ := broadcast_eq env { first := false, nodeId := 0, uid := rx.msg.uid }
            { s1 with query := rx.msg.uid, queryTs := rx.ts }
          rw [h]
          exact .quiet e1.1 (by simp only [grants_snoc_zero, e1.2.1])
        · rename_i hfirst
          have hfirst : rx.msg.first = false := by simpa using hfirst
          split
          · simp only [bind_run, modify_run]
            obtain ⟨r, h, -⟩ := broadcast_eq env { first := false, nodeId := 0, uid := s1.query ++ rx.msg.uid }
              { s1 with query := s1.query ++ rx.msg.uid, queryTs := rx.ts }
            rw [h]
            exact .quiet e1.1 (by simp only [grants_snoc_zero, e1.2.1])
          · split
            · rename_i hl
              obtain ⟨h3, h4, h5⟩ := e1.2.2 (by omega)
              simp only [thirdPhase, bind_run, modify_run, get_run]
              cases hc : chooseId env s1.table (s1.query ++ rx.msg.uid) rx.msg.nodeId with
              | none => exact .quiet e1.1 (by simp only [pure_run, e1.2.1])
              | some i =>
                simp only [bind_run, modify_run]
                obtain ⟨r, h, -⟩ := broadcast_eq env { first := false, nodeId := i, uid := s1.query ++ rx.msg.uid }
                  { s1 with
                    query := s1.query ++ rx.msg.uid
                    queryTs := rx.ts
                    table := s1.table.set (some (s1.query ++ rx.msg.uid)) i wall }
                rw [h]
                rw [e1.1, h3] at hc
                refine .grant rx now wall (s.query ++ rx.msg.uid) i rfl hsrc hfirst hl.1 (h3 ▸ hl.2) rfl h5 hc ?_ ?_
                · cases r <;> simp only [e1.1, h3]
                · cases r <;> simp only [e1.2.1, h3]
            · exact .quiet e1.1 (by simp only [pure_run, e1.2.1])

theorem StepCase.keyed {s s' : Server} {op : Op} (hc : StepCase env s op s') (h : Keyed s.table) : Keyed s'.table := by
  cases hc with
  | quiet ht hg => rw [ht]; exact h
  | monitor n u wall hop hu ht hg => rw [ht]; exact keyed_set h _ _ _
  | grant rx now wall u i hop hsrc hfirst hlen hq hu htime hc ht hg => rw [ht]; exact keyed_set h _ _ _

theorem run_keyed (s : Server) (h : Keyed s.table) (ops : List Op) : Keyed (run env s ops).table := by
  induction ops generalizing s with
  | nil => exact h
  | cons op ops ih => exact ih _ ((step_case env s op).keyed env h)

theorem run_snoc (s : Server) (ops : List Op) (op : Op) : run env s (ops ++ [op]) = step env (run env s ops) op := by
  simp [run]

theorem grants_snoc (sent : List Allocation) (a : Allocation) (h : a.nodeId ≠ 0) :
    grants (sent ++ [a]) = grants sent ++ [a] := by simp [grants, h]

/-! ## C39 -/

/-- When a node ID is granted, it was unknown to the table, or recorded for the same device. -/
theorem C39_moment (s : Server) (op : Op) (a : Allocation)
    (h : grants (step env s op).sent = grants s.sent ++ [a]) :
    s.table.isKnown a.nodeId = false ∨ ∃ r ∈ s.table, r.nodeId = a.nodeId ∧ r.uid = some a.uid := by
  have hc := step_case env s op
  generalize step env s op = s' at *
  have hno : ∀ l : List Allocation, l ≠ l ++ [a] := fun l hl => by simp at hl
  cases hc with
  | quiet ht hg => exact absurd (hg.symm.trans h) (hno _)
  | monitor n u wall hop hu ht hg => rw [hg] at h; exact absurd h (hno _)
  | grant rx now wall u i hop hsrc hfirst hlen hq hu htime hc ht hg =>
    obtain ⟨h0, h1⟩ := chooseId_some env hc
    rw [hg, grants_snoc _ _ h0] at h
    have ha : a = { first := false, nodeId := i, uid := u } := by simpa using h.symm
    subst ha
    rcases h1 with h1 | ⟨h1, -⟩
    · exact .inr (getNodeId_some h1)
    · exact .inl h1

/-- Every grant to a device with a non-zero unique ID is on record. -/
def OnRecord (s : Server) : Prop := ∀ a ∈ grants s.sent, NonZero a.uid →
  ∃ r ∈ s.table, r.nodeId = a.nodeId ∧ r.uid = some a.uid

theorem onRecord_step (s : Server) (op : Op) (hk : Keyed s.table) (h : OnRecord s) : OnRecord (step env s op) := by
  have hc := step_case env s op
  generalize step env s op = s' at *
  cases hc with
  | quiet ht hg => unfold OnRecord; rw [ht, hg]; exact h
  | monitor n u wall hop hu ht hg =>
    unfold OnRecord
    rw [ht, hg]
    intro a ha hz
    obtain ⟨r, h1, h2, h3⟩ := h a ha hz
    refine ⟨r, set_mem.2 (.inl ⟨h1, fun hn => ?_⟩), h2, h3⟩
    have := getUniqueId_mem hk h1
    rw [hn, hu, h3] at this
    cases this
  | grant rx now wall u i hop hsrc hfirst hlen hq hu htime hc ht hg =>
    obtain ⟨h0, h1⟩ := chooseId_some env hc
    unfold OnRecord
    rw [ht, hg, grants_snoc _ _ h0]
    intro a ha hz
    rcases List.mem_append.1 ha with ha | ha
    · obtain ⟨r, h2, h3, h4⟩ := h a ha hz
      by_cases hn : r.nodeId = i
      · have hu' : a.uid = u := by
          rcases h1 with h1 | ⟨h1, -⟩
          · obtain ⟨r', h5, h6, h7⟩ := getNodeId_some h1
            have := keyed_inj hk h2 h5 (hn.trans h6.symm)
            subst this
            rw [h4] at h7
            injection h7
          · rw [isKnown_iff.2 ⟨r, h2, hn⟩] at h1; cases h1
        refine ⟨_, set_mem.2 (.inr rfl), h3 ▸ hn.symm, ?_⟩
        rw [hu'] at hz
        simp [stored, isZero_iff.2 hz, hu']
      · exact ⟨r, set_mem.2 (.inl ⟨h2, hn⟩), h3, h4⟩
    · rw [List.mem_singleton] at ha
      subst ha
      refine ⟨_, set_mem.2 (.inr rfl), rfl, ?_⟩
      simp only at hz
      simp [stored, isZero_iff.2 hz]

theorem onRecord_run (s : Server) (ops : List Op) (hk : Keyed s.table) (h : OnRecord s) : OnRecord (run env s ops) := by
  induction ops generalizing s with
  | nil => exact h
  | cons op ops ih => exact ih _ ((step_case env s op).keyed env hk) (onRecord_step env s op hk h)

/-- In every history, beginning with any table, no node ID is granted to two different devices (with non-zero unique
IDs). -/
theorem C39_unique (t : Table) (hk : Keyed t) (ops : List Op) (a b : Allocation)
    (ha : a ∈ grants (run env { table := t } ops).sent) (hb : b ∈ grants (run env { table := t } ops).sent)
    (hza : NonZero a.uid) (hzb : NonZero b.uid) (hn : a.nodeId = b.nodeId) : a.uid = b.uid := by
  have h := onRecord_run env { table := t } ops hk (fun a ha => by cases ha)
  obtain ⟨r, h1, h2, h3⟩ := h a ha hza
  obtain ⟨r', h4, h5, h6⟩ := h b hb hzb
  have := keyed_inj (run_keyed env _ hk ops) h1 h4 (h2.trans (hn.trans h5.symm))
  subst this
  rw [h3] at h6
  injection h6

/-- The table after the start of the server has node IDs as a key. -/
theorem C39_start (loaded : Table) (hk : Keyed loaded) (nodeId : Nat) (uid : List Byte)
    (known : List (Nat × Option (List Byte))) (wall : Int) : Keyed (start loaded nodeId uid known wall).table := by
  unfold start
  generalize ht : loaded.set (some uid) nodeId wall = t
  have hk : Keyed t := ht ▸ keyed_set hk _ _ _
  clear ht
  induction known generalizing t with
  | nil => exact hk
  | cons x known ih => exact ih _ (keyed_set hk _ _ _)

/-! ## C40 -/

/-- C40 in full: all grants to a device with a non-zero unique ID are the same. -/
def C40_statement : Prop :=
  ∀ (env : AEnv) (t : Table) (ops : List Op) (u : List Byte) (i j : Nat), Keyed t → NonZero u →
    i ∈ grantsTo u (run env { table := t } ops).sent → j ∈ grantsTo u (run env { table := t } ops).sent → i = j

/-- A complete handshake of the device with unique ID 1, 1, ..., 1. -/
def handshake (req : Nat) : List Op :=
  [.alloc ⟨0, 0, ⟨true, req, List.replicate 6 1⟩⟩ true 0 0, .alloc ⟨0, 0, ⟨false, 0, List.replicate 6 1⟩⟩ true 0 0,
    .alloc ⟨0, 0, ⟨false, req, List.replicate 4 1⟩⟩ true 0 0]

/-- It is false: a device that has an allocated node ID and later appears on the bus under another node ID (say because
it was configured so) is then granted that one. -/
theorem C40_counterexample : ¬ C40_statement := by
  intro h
  have := h { timeout := 500000 } [] (handshake 10 ++ [.monitor 20 (some (List.replicate 16 1)) 5] ++ handshake 0)
    (List.replicate 16 1) 10 20 List.nodup_nil (by decide +kernel) (by decide +kernel) (by decide +kernel)
  cases this

/-- The device `u` is only known as node `i`. -/
def OnlyAt (u : List Byte) (i : Nat) (t : Table) : Prop := ∀ r ∈ t, r.uid = some u → r.nodeId = i

theorem grantsTo_eq {s s' : Server} (h : grants s'.sent = grants s.sent) (u : List Byte) :
    grantsTo u s'.sent = grantsTo u s.sent := by simp [grantsTo, h]

theorem grantsTo_snoc (sent : List Allocation) (a : Allocation) (h : a.nodeId ≠ 0) (u : List Byte) :
    grantsTo u (sent ++ [a]) = grantsTo u sent ++ if a.uid = u then [a.nodeId] else [] := by
  simp only [grantsTo, grants_snoc _ _ h, List.filter_append, List.map_append]
  congr 1
  by_cases hu : a.uid = u <;> simp [hu]

theorem stable_step (u : List Byte) (i : Nat) (s : Server) (op : Op) (hz : NonZero u)
    (ho : ∀ n, reports u n op → n = i) (hk : Keyed s.table) (hon : OnlyAt u i s.table)
    (hrec : OnRecord s) (hall : ∀ j ∈ grantsTo u s.sent, j = i)
    (hfirst : grantsTo u s.sent = [] → ∀ j, grantsTo u (step env s op).sent = [j] → j = i) :
    OnlyAt u i (step env s op).table ∧ ∀ j ∈ grantsTo u (step env s op).sent, j = i := by
  have hc := step_case env s op
  generalize step env s op = s' at *
  cases hc with
  | quiet ht hg => rw [ht, grantsTo_eq hg]; exact ⟨hon, hall⟩
  | monitor n u' wall hop hu ht hg =>
    rw [ht, hg]
    refine ⟨fun r hr hru => ?_, hall⟩
    rcases set_mem.1 hr with ⟨hr, -⟩ | rfl
    · exact hon r hr hru
    · have hst : u' = some u := by
        cases u' with
        | none => cases hru
        | some v =>
          simp only [stored] at hru
          split at hru
          · cases hru
          · exact hru
      subst hop
      exact ho n ⟨rfl, hst⟩
  | grant rx now wall v j hop hsrc hfst hlen hq hu htime hc ht hg =>
    obtain ⟨h0, h1⟩ := chooseId_some env hc
    have hji : v = u → j = i := by
      rintro rfl
      cases hgt : grantsTo v s.sent with
      | nil =>
        refine hfirst hgt j ?_
        rw [hg, grantsTo_snoc _ _ h0, hgt]
        simp
      | cons k rest =>
        have hki : k = i := hall k (by rw [hgt]; exact List.mem_cons_self)
        have hmem : k ∈ grantsTo v s.sent := by rw [hgt]; exact List.mem_cons_self
        simp only [grantsTo, List.mem_map, List.mem_filter, beq_iff_eq] at hmem
        obtain ⟨a, ⟨ha, hau⟩, hak⟩ := hmem
        obtain ⟨r, hr, hrn, hru⟩ := hrec a ha (by rw [hau]; exact hz)
        rw [hau] at hru
        obtain ⟨l, hl⟩ := getNodeId_isSome (choose := env.choose) hr hru
        obtain ⟨r', hr', hrn', hru'⟩ := getNodeId_some hl
        have hli : l = i := hrn'.symm.trans (hon r' hr' hru')
        have hi0 : i ≠ 0 := by
          have := (List.mem_filter.1 ha).2
          simp only [bne_iff_ne, ne_eq] at this
          rw [hak, hki] at this
          exact this
        rw [chooseId_known env (hli ▸ hl) (hli ▸ hi0)] at hc
        injection hc with hc
        rw [← hc]
    rw [ht, hg]
    constructor
    · intro r hr hru
      rcases set_mem.1 hr with ⟨hr, -⟩ | rfl
      · exact hon r hr hru
      · simp only [stored] at hru
        split at hru
        · cases hru
        · injection hru with hru
          exact hji hru
    · intro k hk'
      rw [grantsTo_snoc _ _ h0] at hk'
      rcases List.mem_append.1 hk' with hk' | hk'
      · exact hall k hk'
      · split at hk'
        · rename_i hvu
          rw [List.mem_singleton] at hk'
          rw [hk']
          exact hji hvu
        · cases hk'

theorem grantsTo_prefix (s : Server) (op : Op) (u : List Byte) :
    grantsTo u s.sent <+: grantsTo u (step env s op).sent := by
  have hc := step_case env s op
  generalize step env s op = s' at *
  cases hc with
  | quiet ht hg => rw [grantsTo_eq hg]; exact List.prefix_refl _
  | monitor n u' wall hop hu ht hg => rw [hg]; exact List.prefix_refl _
  | grant rx now wall v j hop hsrc hfst hlen hq hu htime hc ht hg =>
    rw [hg, grantsTo_snoc _ _ (chooseId_some env hc).1]
    exact List.prefix_append _ _

theorem grantsTo_prefix_run (s : Server) (ops : List Op) (u : List Byte) :
    grantsTo u s.sent <+: grantsTo u (run env s ops).sent := by
  induction ops generalizing s with
  | nil => exact List.prefix_refl _
  | cons op ops ih => exact (grantsTo_prefix env s op u).trans (ih _)

theorem stable_run (u : List Byte) (i : Nat) (hz : NonZero u) (rest : List Nat) (ops : List Op) :
    ∀ s : Server, (∀ op ∈ ops, ∀ n, reports u n op → n = i) → Keyed s.table → OnlyAt u i s.table → OnRecord s →
    (∀ j ∈ grantsTo u s.sent, j = i) → grantsTo u (run env s ops).sent = i :: rest →
    ∀ j ∈ grantsTo u (run env s ops).sent, j = i := by
  induction ops with
  | nil => intro s _ _ _ _ hall _; exact hall
  | cons op ops ih =>
    intro s ho hk hon hrec hall hgr
    have h := stable_step env u i s op hz (ho op List.mem_cons_self) hk hon hrec hall ?_
    · exact ih (step env s op) (fun op' ho' => ho op' (List.mem_cons_of_mem _ ho')) ((step_case env s op).keyed env hk)
        h.1 (onRecord_step env s op hk hrec) h.2 hgr
    · intro _ j hj
      have := grantsTo_prefix_run env (step env s op) ops u
      rw [hj] at this
      obtain ⟨t, ht⟩ := this
      have hgr' : grantsTo u (run env (step env s op) ops).sent = i :: rest := hgr
      rw [hgr'] at ht
      injection ht

/-- A device with a non-zero unique ID is always granted the node ID that it was granted first, in every history in which
it is known under no other node ID: neither from the initial table nor from the node monitor. (Missing from the full
statement: that restriction. It is needed: `C40_counterexample`.) -/
theorem C40_stable_partial (t : Table) (hk : Keyed t) (ops : List Op) (u : List Byte) (hz : NonZero u) (i : Nat)
    (rest : List Nat) (hfirst : grantsTo u (run env { table := t } ops).sent = i :: rest)
    (ht : OnlyAt u i t) (ho : ∀ op ∈ ops, ∀ n, reports u n op → n = i) : ∀ j ∈ rest, j = i := by
  intro j hj
  refine stable_run env u i hz rest ops { table := t } ho hk ht (fun a ha => by cases ha) (fun j hj => by cases hj)
    hfirst j ?_
  rw [hfirst]
  exact List.mem_cons_of_mem _ hj

example : grantsTo (List.replicate 16 1) (run { timeout := 500000 } {} (handshake 10 ++
    [.monitor 10 (some (List.replicate 16 1)) 5, .monitor 20 (some (List.replicate 16 2)) 5] ++ handshake 0)).sent =
    [10, 10] := by decide +kernel

/-! ## C41 -/

/-- C41 in full: every newly granted node ID lies in the configured range. -/
def C41_statement : Prop :=
  ∀ (env : AEnv) (t : Table) (ops : List Op) (op : Op) (a : Allocation),
    grants (step env (run env { table := t } ops) op).sent = grants (run env { table := t } ops).sent ++ [a] →
    (run env { table := t } ops).table.isKnown a.nodeId = false → env.lo ≤ a.nodeId ∧ a.nodeId ≤ env.hi

/-- It is false: a device that asks for a node ID below the range gets it. -/
theorem C41_counterexample : ¬ C41_statement := by
  intro h
  have := h { lo := 50, hi := 100, timeout := 500000 } [] ((handshake 10).take 2)
    (.alloc ⟨0, 0, ⟨false, 10, List.replicate 4 1⟩⟩ true 0 0) ⟨false, 10, List.replicate 16 1⟩ (by decide +kernel)
    (by decide +kernel)
  revert this
  decide +kernel

/-- What does hold: a newly granted node ID is at most the upper end; and it is above the lower end, or at least the node
ID that the device asked for. So it lies in the range unless the device asked for one below. -/
theorem C41_range_partial (s : Server) (op : Op) (a : Allocation)
    (h : grants (step env s op).sent = grants s.sent ++ [a]) (hnew : s.table.isKnown a.nodeId = false) :
    a.nodeId ≤ env.hi ∧ ∃ rx now wall, op = .alloc rx true now wall ∧
      (env.lo < a.nodeId ∨ (rx.msg.nodeId ≠ 0 ∧ rx.msg.nodeId ≤ a.nodeId)) ∧
      (rx.msg.nodeId = 0 ∨ env.lo ≤ rx.msg.nodeId → env.lo ≤ a.nodeId) := by
  have hc := step_case env s op
  generalize step env s op = s' at *
  have hno : ∀ l : List Allocation, l ≠ l ++ [a] := fun l hl => by simp at hl
  cases hc with
  | quiet ht hg => exact absurd (hg.symm.trans h) (hno _)
  | monitor n u wall hop hu ht hg => rw [hg] at h; exact absurd h (hno _)
  | grant rx now wall u i hop hsrc hfirst hlen hq hu htime hc ht hg =>
    obtain ⟨h0, h1⟩ := chooseId_some env hc
    rw [hg, grants_snoc _ _ h0] at h
    have ha : a = { first := false, nodeId := i, uid := u } := by simpa using h.symm
    subst ha
    simp only at hnew ⊢
    rcases h1 with h1 | ⟨-, h1⟩
    · obtain ⟨r, hr, hrn, -⟩ := getNodeId_some h1
      rw [isKnown_iff.2 ⟨r, hr, hrn⟩] at hnew
      cases hnew
    · refine ⟨by omega, rx, now, wall, hop, ?_, ?_⟩
      · rcases h1 with h1 | h1
        · exact .inr ⟨h1.1, h1.2.1⟩
        · exact .inl h1.1
      · intro hr
        rcases h1 with h1 | h1
        · rcases hr with hr | hr
          · exact absurd hr h1.1
          · exact Nat.le_trans hr h1.2.1
        · exact Nat.le_of_lt h1.1

/-! ## C42 -/

theorem query_step (ops : List Op) (s : Server) (op : Op)
    (h : s.query = [] ∨ Collected env ops s.query s.queryTs) :
    (step env s op).query = [] ∨ Collected env (ops ++ [op]) (step env s op).query (step env s op).queryTs := by
  cases op with
  | monitor n u wall =>
    have h1 : (step env s (.monitor n u wall)).query = s.query ∧ (step env s (.monitor n u wall)).queryTs = s.queryTs := by
      simp only [step, onMonitorEvent, modify_run]
      split <;> exact ⟨rfl, rfl⟩
    rw [h1.1, h1.2]
    rcases h with h | h
    · exact .inl h
    · exact .inr (.monitor _ _ _ _ _ _ h)
  | alloc rx d now wall =>
    simp only [step, onAllocation]
    have ign : (rx.src ≠ 0 ∨ d = false) → s.query = [] ∨ Collected env (ops ++ [.alloc rx d now wall]) s.query s.queryTs := by
      intro hi
      rcases h with h | h
      · exact .inl h
      · exact .inr (.ignored _ _ _ _ _ _ _ h hi)
    split
    · rename_i hs; exact ign (.inl hs)
    · rename_i hsrc
      have hsrc : rx.src = 0 := by simpa using hsrc
      split
      · rename_i hd; exact ign (.inr (by simpa using hd))
      · rename_i hd
        have hd : d = true := by simpa using hd
        subst hd
        simp only [bind_run, modify_run, get_run]
        generalize hs1 : (if 0 < s.query.length ∧ env.timeout < now - s.queryTs then { s with query := [] } else s) = s1
        have e1 : s1.query = [] ∨ (Collected env ops s1.query s1.queryTs ∧ now - s1.queryTs ≤ env.timeout) := by
          rw [← hs1]
          split
          · exact .inl rfl
          · rename_i hn
            rcases h with h | h
            · exact .inl h
            · by_cases hq : s.query = []
              · exact .inl hq
              · have := List.length_pos_iff.2 hq
                exact .inr ⟨h, by omega⟩
        have misfit : rx.msg.first = false → ¬ Fits s1.query rx.msg.uid →
            s1.query = [] ∨ Collected env (ops ++ [.alloc rx true now wall]) s1.query s1.queryTs := by
          intro hf hm
          rcases e1 with e1 | ⟨e1, e2⟩
          · exact .inl e1
          · exact .inr (.misfit _ _ _ _ _ _ e1 hsrc hf hm e2)
        have next : rx.msg.first = false → Fits s1.query rx.msg.uid →
            Collected env (ops ++ [.alloc rx true now wall]) (s1.query ++ rx.msg.uid) rx.ts := by
          intro hf hm
          rcases e1 with e1 | ⟨e1, e2⟩
          · rw [e1] at hm
            rcases hm with ⟨-, hm⟩ | ⟨-, hm⟩ <;> cases hm
          · exact .next _ _ _ _ _ _ e1 hsrc hf hm e2
        split
        · rename_i hf
          simp only [bind_run, modify_run]
          obtain ⟨r, hb, -⟩ := broadcast_eq env { first := false, nodeId := 0, uid := rx.msg.uid }
            { s1 with query := rx.msg.uid, queryTs := rx.ts }
          rw [hb]
          exact .inr (.first _ _ _ _ hsrc hf)
        · rename_i hfirst
          have hfirst : rx.msg.first = false := by simpa using hfirst
          split
          · rename_i hl
            simp only [bind_run, modify_run]
            obtain ⟨r, hb, -⟩ := broadcast_eq env { first := false, nodeId := 0, uid := s1.query ++ rx.msg.uid }
              { s1 with query := s1.query ++ rx.msg.uid, queryTs := rx.ts }
            rw [hb]
            exact .inr (next hfirst (.inl hl))
          · rename_i hl
            split
            · rename_i hl
              simp only [thirdPhase, bind_run, modify_run, get_run]
              cases hc : chooseId env s1.table (s1.query ++ rx.msg.uid) rx.msg.nodeId with
              | none => exact .inr (next hfirst (.inr hl))
              | some i =>
                simp only [bind_run, modify_run]
                obtain ⟨r, hb, -⟩ := broadcast_eq env { first := false, nodeId := i, uid := s1.query ++ rx.msg.uid }
                  { s1 with
                    query := s1.query ++ rx.msg.uid
                    queryTs := rx.ts
                    table := s1.table.set (some (s1.query ++ rx.msg.uid)) i wall }
                rw [hb]
                cases r with
                | error e => exact .inr (next hfirst (.inr hl))
                | ok u => exact .inl rfl
            · rename_i hl'
              exact misfit hfirst (fun hm => hm.elim hl hl')

theorem query_run (t : Table) (ops : List Op) : (run env { table := t } ops).query = [] ∨
    Collected env ops (run env { table := t } ops).query (run env { table := t } ops).queryTs := by
  suffices ∀ (pre : List Op) (s : Server), (s.query = [] ∨ Collected env pre s.query s.queryTs) →
      ((run env s ops).query = [] ∨ Collected env (pre ++ ops) (run env s ops).query (run env s ops).queryTs) from
    this [] _ (.inl rfl)
  induction ops with
  | nil => intro pre s h; rw [List.append_nil]; exact h
  | cons op ops ih =>
    intro pre s h
    have := ih (pre ++ [op]) _ (query_step env pre s op h)
    rw [List.append_assoc] at this
    exact this

/-- Every grant is made in answer to a message of an anonymous node while all nodes are discovered, and is for the
16-byte unique ID made up of the parts collected since the last first part, this one included, each of them in time. -/
theorem C42_grant (t : Table) (ops : List Op) (op : Op) (a : Allocation)
    (h : grants (step env (run env { table := t } ops) op).sent = grants (run env { table := t } ops).sent ++ [a]) :
    a.uid.length = 16 ∧ ∃ rx now wall, op = .alloc rx true now wall ∧ rx.src = 0 ∧ rx.msg.first = false ∧
      Collected env (ops ++ [op]) a.uid rx.ts ∧
      ∃ q t, Collected env ops q t ∧ a.uid = q ++ rx.msg.uid ∧ Fits q rx.msg.uid ∧ now - t ≤ env.timeout := by
  have hq := query_run env t ops
  generalize run env { table := t } ops = s at *
  have hc := step_case env s op
  generalize step env s op = s' at *
  have hno : ∀ l : List Allocation, l ≠ l ++ [a] := fun l hl => by simp at hl
  cases hc with
  | quiet ht hg => exact absurd (hg.symm.trans h) (hno _)
  | monitor n u wall hop hu ht hg => rw [hg] at h; exact absurd h (hno _)
  | grant rx now wall u i hop hsrc hfirst hlen hq' hu htime hc ht hg =>
    obtain ⟨h0, -⟩ := chooseId_some env hc
    rw [hg, grants_snoc _ _ h0] at h
    have ha : a = { first := false, nodeId := i, uid := u } := by simpa using h.symm
    subst ha hu
    have hcol : Collected env ops s.query s.queryTs := by
      rcases hq with hq | hq
      · rw [hq] at hq'; cases hq'
      · exact hq
    refine ⟨by simp [hlen, hq'], rx, now, wall, hop, hsrc, hfirst, ?_, s.query, s.queryTs, hcol, rfl, .inr ⟨hlen, hq'⟩,
      htime⟩
    subst hop
    exact .next _ _ _ _ _ _ hcol hsrc hfirst (.inr ⟨hlen, hq'⟩) htime

theorem firstFree_isSome {t : Table} {ids : List Nat} {i : Nat} (h : i ∈ ids) (hf : t.isKnown i = false) :
    ∃ j, firstFree t ids = some j := by
  cases hc : firstFree t ids with
  | some j => exact ⟨j, rfl⟩
  | none =>
    have := List.find?_eq_none.1 hc i h
    simp [hf] at this

theorem chooseId_isSome {t : Table} {u : List Byte} {req i : Nat} (h1 : env.lo < i) (h2 : i ≤ env.hi)
    (h3 : t.isKnown i = false) : ∃ j, chooseId env t u req = some j ∧ j ≠ 0 := by
  obtain ⟨j, hj⟩ := firstFree_isSome (mem_rangeDown.2 ⟨h1, h2⟩) h3
  have hj0 : j ≠ 0 := by have := mem_rangeDown.1 (firstFree_some hj).1; omega
  unfold chooseId
  have hor : ∀ a, ∃ k, orElse (orElse a (some j)) none = some k ∧ k ≠ 0 := by
    intro a
    cases a with
    | none => exact ⟨j, by obtain ⟨n, rfl⟩ : ∃ n, j = n + 1 := ⟨j - 1, by omega⟩
                           simp [orElse], hj0⟩
    | some k =>
      cases k with
      | zero => exact ⟨j, by obtain ⟨n, rfl⟩ : ∃ n, j = n + 1 := ⟨j - 1, by omega⟩
                             simp [orElse], hj0⟩
      | succ k => exact ⟨k + 1, by simp [orElse], by omega⟩
  simp only [hj]
  exact hor _

/-- Conversely, a complete and timely handshake is answered with a grant, if there is a free node ID in the range and the
broadcasts do not fail. -/
theorem C42_completes (s : Server) (rx1 rx2 rx3 : Rx) (now1 now2 now3 wall1 wall2 wall3 : Int)
    (hs : rx1.src = 0 ∧ rx2.src = 0 ∧ rx3.src = 0)
    (hf : rx1.msg.first = true ∧ rx2.msg.first = false ∧ rx3.msg.first = false)
    (hl : rx1.msg.uid.length = 6 ∧ rx2.msg.uid.length = 6 ∧ rx3.msg.uid.length = 4)
    (ht : now2 - rx1.ts ≤ env.timeout ∧ now3 - rx2.ts ≤ env.timeout) (hr : ∀ l, env.raises l = none) (i : Nat)
    (hi : env.lo < i ∧ i ≤ env.hi ∧ s.table.isKnown i = false) :
    ∃ j, j ≠ 0 ∧ (run env s [.alloc rx1 true now1 wall1, .alloc rx2 true now2 wall2, .alloc rx3 true now3 wall3]).sent =
      s.sent ++ [⟨false, 0, rx1.msg.uid⟩, ⟨false, 0, rx1.msg.uid ++ rx2.msg.uid⟩,
        ⟨false, j, rx1.msg.uid ++ rx2.msg.uid ++ rx3.msg.uid⟩] := by
  have e1 : step env s (.alloc rx1 true now1 wall1) =
      { s with
        query := rx1.msg.uid
        queryTs := rx1.ts
        sent := s.sent ++ [⟨false, 0, rx1.msg.uid⟩] } := by
    simp only [step, onAllocation, hs.1, bind_run, modify_run, get_run, hf.1, broadcast, hr]
    simp only [ne_eq, not_true, if_false, Bool.not_true, Bool.false_eq_true, if_true, bind_run, modify_run, get_run,
      broadcast, hr]
    split <;> rfl
  have e2 : ∀ s1 : Server, s1.query = rx1.msg.uid → s1.queryTs = rx1.ts → step env s1 (.alloc rx2 true now2 wall2) =
      { s1 with
        query := rx1.msg.uid ++ rx2.msg.uid
        queryTs := rx2.ts
        sent := s1.sent ++ [⟨false, 0, rx1.msg.uid ++ rx2.msg.uid⟩] } := by
    intro s1 hq hqt
    have : ¬ (0 < s1.query.length ∧ env.timeout < now2 - s1.queryTs) := by rw [hqt]; omega
    have hl6 : s1.query.length = 6 := by rw [hq]; exact hl.1
    simp only [step, onAllocation, hs.2.1, ne_eq, not_true, if_false, Bool.not_true, Bool.false_eq_true, bind_run,
      modify_run, get_run, hf.2.1, if_neg this]
    simp only [hl6, hl.2.1, and_self, if_true, bind_run, modify_run, get_run, broadcast, hr]
    rw [hq]
  have e3 : ∀ s2 : Server, s2.query = rx1.msg.uid ++ rx2.msg.uid → s2.queryTs = rx2.ts → s2.table = s.table →
      ∃ j, j ≠ 0 ∧ (step env s2 (.alloc rx3 true now3 wall3)).sent =
        s2.sent ++ [⟨false, j, rx1.msg.uid ++ rx2.msg.uid ++ rx3.msg.uid⟩] := by
    intro s2 hq hqt htb
    have : ¬ (0 < s2.query.length ∧ env.timeout < now3 - s2.queryTs) := by rw [hqt]; omega
    have hl12 : s2.query.length = 12 := by rw [hq, List.length_append]; omega
    have h46 : ¬ ((4 : Nat) = 6) := by decide
    obtain ⟨j, hj, hj0⟩ := chooseId_isSome env (u := rx1.msg.uid ++ rx2.msg.uid ++ rx3.msg.uid)
      (req := rx3.msg.nodeId) hi.1 hi.2.1 hi.2.2
    refine ⟨j, hj0, ?_⟩
    simp only [step, onAllocation, hs.2.2, ne_eq, not_true, if_false, Bool.not_true, Bool.false_eq_true, bind_run,
      modify_run, get_run, hf.2.2, if_neg this]
    simp only [hl.2.2, hl12, thirdPhase, and_self, if_true, h46, false_and, if_false, bind_run, modify_run, get_run]
    rw [hq, htb, hj]
    simp only [bind_run, modify_run, broadcast, hr]
  simp only [run, List.foldl_cons, List.foldl_nil]
  rw [e1, e2 _ rfl rfl]
  obtain ⟨j, hj0, hj⟩ := e3 { s with
    query := rx1.msg.uid ++ rx2.msg.uid
    queryTs := rx2.ts
    sent := s.sent ++ [⟨false, 0, rx1.msg.uid⟩] ++ [⟨false, 0, rx1.msg.uid ++ rx2.msg.uid⟩] } rfl rfl rfl
  refine ⟨j, hj0, ?_⟩
  rw [hj]
  simp

example : grants (run { timeout := 500000 } {} (handshake 0)).sent = [⟨false, 125, List.replicate 16 1⟩] := by
  decide +kernel
example : Collected { timeout := 500000 } (handshake 0) (List.replicate 16 1) 0 :=
  .next [_, _] _ _ _ (List.replicate 12 1) 0 (.next [_] _ _ _ (List.replicate 6 1) 0 (.first [] _ _ _ rfl rfl) rfl rfl
    (.inl ⟨rfl, rfl⟩) (by decide)) rfl rfl (.inr ⟨rfl, rfl⟩) (by decide)

end Alloc
end Dronecan
