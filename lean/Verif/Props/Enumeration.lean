import Verif.Model.Enumeration

/-!
# C145: each ESC gets an index of its own

The specification speaks about the requests sent and the answers that came: which node was asked to have which index, and what it
answered.
-/

namespace Dronecan
namespace Enumeration

/-- Who was asked to have which index, in the order of the requests. -/
def sets : List Act → List (Nat × Nat)
  | [] => []
  | .ask (.getSet n _ v) :: l => (n, v) :: sets l
  | _ :: l => sets l

/-- A node is told to stop enumerating, sets its parameter to the index and saves it, and says so each time. -/
def chain (n : Nat) (name : Name) (i : Nat) : List Act :=
  [.ask (.begin n 0), .told (.begin n 0) (.result true), .ask (.getSet n name i), .told (.getSet n name i) (.param name i),
   .ask (.save n), .told (.save n) (.result true)]

/-- The nodes that sent indications. -/
def sources : List Ev → List Nat
  | [] => []
  | .indication n _ :: es => n :: sources es
  | _ :: es => sources es

theorem sets_append (a b : List Act) : sets (a ++ b) = sets a ++ sets b := by
  induction a with
  | nil => rfl
  | cons x a ih =>
    rcases x with r | ⟨r, y⟩
    · cases r <;> simp [sets, ih]
    · simp [sets, ih]

theorem keep {a l : List Act} (x : Act) (h : a.Sublist l) : a.Sublist (l ++ [x]) := h.trans (List.sublist_append_left l [x])

theorem grow {a l : List Act} (x : Act) (h : a.Sublist l) : (a ++ [x]).Sublist (l ++ [x]) := h.append (List.Sublist.refl [x])

theorem sameSet_iff (a b : List Nat) : sameSet a b = true ↔ ∀ n, n ∈ a ↔ n ∈ b := by
  simp only [sameSet, Bool.and_eq_true, List.all_eq_true, List.contains_iff_mem]
  exact ⟨fun h n => ⟨h.1 n, h.2 n⟩, fun h => ⟨fun n => (h n).1, fun n => (h n).2⟩⟩

/-- What holds in each of the loops. -/
def At (P : Nat → Prop) (t : Tool) : Prop :=
  match t.phase with
  | .starting k => t.enumerated = [] ∧ k + t.outstanding.length = t.nodes.length ∧ (∀ r ∈ t.outstanding, ∃ n m, r = .begin n m) ∧ sets t.log = []
  | .listening r => t.outstanding = [] ∧ sets t.log = t.enumerated.zipIdx ∧ (∀ n name, r = some (n, name) → n ∉ t.enumerated ∧ P n)
  | .stopping n name k => n ∉ t.enumerated ∧ P n ∧ sets t.log = t.enumerated.zipIdx ∧
      ((k = 0 ∧ t.outstanding = [.begin n 0] ∧ ((chain n name t.nextIndex).take 1).Sublist t.log) ∨
       (k = 1 ∧ t.outstanding = [] ∧ ((chain n name t.nextIndex).take 2).Sublist t.log))
  | .setting n name f => n ∉ t.enumerated ∧ P n ∧ sets t.log = (t.enumerated ++ [n]).zipIdx ∧
      ((f = false ∧ t.outstanding = [.getSet n name t.nextIndex] ∧ ((chain n name t.nextIndex).take 3).Sublist t.log) ∨
       (f = false ∧ t.outstanding = [.save n] ∧ ((chain n name t.nextIndex).take 5).Sublist t.log) ∨
       (f = true ∧ t.outstanding = [] ∧ (chain n name t.nextIndex).Sublist t.log))
  | .returned => sets t.log = t.enumerated.zipIdx ∧ (∀ n, n ∈ t.enumerated ↔ n ∈ t.nodes)
  | .raised => ∃ a : List Nat, a.Nodup ∧ t.enumerated <+: a ∧ a.length ≤ t.enumerated.length + 1 ∧ sets t.log = a.zipIdx ∧ ∀ n ∈ a, P n

structure Inv (P : Nat → Prop) (t : Tool) : Prop where
  nodup : t.enumerated.Nodup
  next : t.nextIndex = t.enumerated.length
  from' : ∀ n ∈ t.enumerated, P n
  done : ∀ (i n : Nat), t.enumerated[i]? = some n → ∃ name, (chain n name i).Sublist t.log
  loc : At P t

theorem nodup_snoc {l : List Nat} {n : Nat} (h : l.Nodup) (hn : n ∉ l) : (l ++ [n]).Nodup := by
  rw [List.nodup_append]
  refine ⟨h, by simp, ?_⟩
  intro a ha b hb e
  simp at hb
  exact hn (hb ▸ e ▸ ha)

/-- Sending or hearing something more keeps what was done. -/
theorem done_more {t : Tool} (x : Act)
    (h : ∀ (i n : Nat), t.enumerated[i]? = some n → ∃ name, (chain n name i).Sublist t.log) :
    ∀ (i n : Nat), t.enumerated[i]? = some n → ∃ name, (chain n name i).Sublist (t.log ++ [x]) :=
  fun i n e => (h i n e).elim fun name s => ⟨name, keep x s⟩

/-- Raising. -/
theorem inv_raise {P : Nat → Prop} {t : Tool} (h : Inv P t) : Inv P { t with phase := .raised } := by
  refine ⟨h.nodup, h.next, h.from', h.done, ?_⟩
  have hl := h.loc
  simp only [At] at hl ⊢
  have base : sets t.log = t.enumerated.zipIdx →
      ∃ a : List Nat, a.Nodup ∧ t.enumerated <+: a ∧ a.length ≤ t.enumerated.length + 1 ∧ sets t.log = a.zipIdx ∧ ∀ n ∈ a, P n :=
    fun e => ⟨t.enumerated, h.nodup, List.prefix_refl _, by omega, e, h.from'⟩
  cases hp : t.phase <;> rw [hp] at hl <;> simp only at hl
  · exact base (by rw [hl.2.2.2, hl.1]; rfl)
  · exact base hl.2.1
  · exact base hl.2.2.1
  · rename_i n name f
    refine ⟨t.enumerated ++ [n], nodup_snoc h.nodup hl.1, List.prefix_append _ _, by simp, hl.2.2.1, ?_⟩
    intro m hm
    rcases List.mem_append.1 hm with hm | hm
    · exact h.from' m hm
    · simp at hm; exact hm ▸ hl.2.1
  · exact base hl.1
  · exact hl

/-- Raising after an answer. -/
theorem inv_told {P : Nat → Prop} {t : Tool} (h : Inv P t) (o : List Req) (r : Req) (a : Answer) :
    Inv P { t with phase := .raised, outstanding := o, log := t.log ++ [.told r a] } := by
  have g := inv_raise h
  refine ⟨h.nodup, h.next, h.from', done_more _ h.done, ?_⟩
  have hl := g.loc
  simp only [At] at hl ⊢
  rw [sets_append]
  simpa [sets] using hl

theorem inv_head {P : Nat → Prop} {t : Tool} (h1 : t.enumerated.Nodup) (h2 : t.nextIndex = t.enumerated.length)
    (h3 : ∀ n ∈ t.enumerated, P n) (h4 : ∀ (i n : Nat), t.enumerated[i]? = some n → ∃ name, (chain n name i).Sublist t.log)
    (h5 : t.outstanding = []) (h6 : sets t.log = t.enumerated.zipIdx) : Inv P (head t) := by
  simp only [head]
  split
  · rename_i hs
    exact ⟨h1, h2, h3, h4, by simp only [At]; exact ⟨h6, (sameSet_iff _ _).1 hs⟩⟩
  · exact ⟨h1, h2, h3, h4, by simp only [At]; exact ⟨h5, h6, fun n name e => nomatch e⟩⟩

theorem inv_pause {P : Nat → Prop} {t : Tool} (h : Inv P t) (late : Bool) : Inv P (pause late t) := by
  have hl := h.loc
  simp only [At] at hl
  simp only [pause]
  cases hp : t.phase <;> rw [hp] at hl <;> simp only at hl ⊢
  · rename_i k
    split
    · exact h
    · refine inv_head h.nodup h.next h.from' h.done ?_ (by rw [hl.2.2.2, hl.1]; rfl)
      have := hl.2.1
      exact List.length_eq_zero_iff.1 (by omega)
  · rename_i r
    split
    · exact inv_raise h
    · rcases r with _ | ⟨n, name⟩
      · exact h
      · have hn := hl.2.2 n name rfl
        refine ⟨h.nodup, h.next, h.from', done_more _ h.done, ?_⟩
        simp only [request, At]
        refine ⟨hn.1, hn.2, by rw [sets_append, hl.2.1]; simp [sets], .inl ⟨by trivial, by rw [hl.1]; rfl, ?_⟩⟩
        simp [chain]
  · rename_i n name k
    split
    · exact h
    · rename_i hk
      rcases hl with ⟨hn, hP, hs, ⟨hk0, _⟩ | ⟨_, ho, hc⟩⟩
      · exact absurd (by omega) hk
      · refine ⟨h.nodup, h.next, h.from', done_more _ h.done, ?_⟩
        simp only [request, At]
        refine ⟨hn, hP, ?_, .inl ⟨by trivial, by rw [ho]; rfl, grow _ hc⟩⟩
        rw [sets_append, hs, List.zipIdx_append, h.next]
        simp [sets]
  · rename_i n name f
    split
    · rename_i hf
      rcases hl with ⟨hn, hP, hs, ⟨hf0, _⟩ | ⟨hf0, _⟩ | ⟨_, ho, hc⟩⟩
      · rw [hf] at hf0; exact nomatch hf0
      · rw [hf] at hf0; exact nomatch hf0
      · refine inv_head (nodup_snoc h.nodup hn) (by simp [h.next]) ?_ ?_ ho hs
        · intro m hm
          rcases List.mem_append.1 hm with hm | hm
          · exact h.from' m hm
          · simp at hm; exact hm ▸ hP
        · intro i m e
          simp only at e
          rcases Nat.lt_or_ge i t.enumerated.length with hi | hi
          · rw [List.getElem?_append_left hi] at e
            exact h.done i m e
          · rw [List.getElem?_append_right hi] at e
            have hi0 : i - t.enumerated.length = 0 := by
              rcases Nat.eq_zero_or_pos (i - t.enumerated.length) with z | z
              · exact z
              · rw [List.getElem?_eq_none (by simp; omega)] at e
                exact nomatch e
            rw [hi0] at e
            simp at e
            have : i = t.nextIndex := by rw [h.next]; omega
            exact ⟨name, by rw [this, ← e]; exact hc⟩
    · exact h
  · exact h
  · exact h

theorem inv_step {P : Nat → Prop} {t : Tool} (h : Inv P t) (e : Ev) (he : ∀ n name, e = .indication n name → P n) : Inv P (step t e) := by
  simp only [step]
  split
  · exact h
  rename_i hend
  cases e with
  | pause late => exact inv_pause h late
  | indication n name =>
    simp only [onIndication]
    have hl := h.loc
    simp only [At] at hl
    cases hp : t.phase <;> rw [hp] at hl <;> simp only at hl ⊢ <;> try exact h
    split
    · exact h
    · rename_i r hn
      refine ⟨h.nodup, h.next, h.from', h.done, ?_⟩
      simp only [At]
      refine ⟨hl.1, hl.2.1, ?_⟩
      intro m nm em
      injection em with em
      injection em with e1 e2
      exact ⟨e1 ▸ hn, e1 ▸ he n name rfl⟩
  | answer i a =>
    simp only
    have hl := h.loc
    simp only [At] at hl
    cases ho : t.outstanding[i]? with
    | none => exact h
    | some r =>
      simp only
      cases hp : t.phase <;> rw [hp] at hl <;> simp only at hl
      · rename_i k
        rcases hl.2.2.1 r (List.mem_of_getElem? ho) with ⟨n, m, rfl⟩
        simp only [onBegin]
        split
        · refine ⟨h.nodup, h.next, h.from', done_more _ h.done, ?_⟩
          simp only [At]
          have hi : i < t.outstanding.length := (List.getElem?_eq_some_iff.1 ho).1
          refine ⟨hl.1, ?_, fun r hr => hl.2.2.1 r (List.mem_of_mem_eraseIdx hr), by rw [sets_append, hl.2.2.2]; rfl⟩
          rw [List.length_eraseIdx_of_lt hi]
          have := hl.2.1
          omega
        · exact inv_told h _ _ _
      · rw [hl.1] at ho; exact nomatch ho
      · rename_i n name k
        rcases hl with ⟨hn, hP, hs, ⟨hk, hout, hc⟩ | ⟨_, hout, _⟩⟩
        · rw [hout] at ho
          have hi : i = 0 := by
            rcases Nat.eq_zero_or_pos i with z | z
            · exact z
            · rw [List.getElem?_eq_none (by simp; omega)] at ho; exact nomatch ho
          subst hi
          simp at ho
          subst ho
          simp only [onBegin]
          split
          · refine ⟨h.nodup, h.next, h.from', done_more _ h.done, ?_⟩
            simp only [At]
            refine ⟨hn, hP, by rw [sets_append, hs]; simp [sets], .inr ⟨by omega, by rw [hout]; rfl, ?_⟩⟩
            exact grow _ hc
          · exact inv_told h _ _ _
        · rw [hout] at ho; exact nomatch ho
      · rename_i n name f
        have one : ∀ x : Req, t.outstanding = [x] → i = 0 ∧ r = x := by
          intro x hx
          rw [hx] at ho
          rcases Nat.eq_zero_or_pos i with z | z
          · subst z; simp at ho; exact ⟨rfl, ho.symm⟩
          · rw [List.getElem?_eq_none (by simp; omega)] at ho; exact nomatch ho
        rcases hl with ⟨hn, hP, hs, ⟨hf, hout, hc⟩ | ⟨hf, hout, hc⟩ | ⟨_, hout, _⟩⟩
        · obtain ⟨rfl, rfl⟩ := one _ hout
          simp only [onSet, hp]
          cases a with
          | timeout => exact inv_told h _ _ _
          | result b => exact inv_told h _ _ _
          | param nm v =>
            simp only
            split
            · rename_i hv
              obtain ⟨rfl, rfl⟩ := hv
              refine ⟨h.nodup, h.next, h.from', fun j m e => ?_, ?_⟩
              · obtain ⟨x, hx⟩ := h.done j m e
                exact ⟨x, keep _ (keep _ hx)⟩
              simp only [request, At]
              refine ⟨hn, hP, by rw [sets_append, sets_append, hs]; simp [sets], .inr (.inl ⟨hf, by rw [hout]; rfl, ?_⟩)⟩
              exact grow _ (grow _ hc)
            · exact inv_told h _ _ _
        · obtain ⟨rfl, rfl⟩ := one _ hout
          simp only [onSave, hp]
          cases a with
          | timeout => exact inv_told h _ _ _
          | param nm v => exact inv_told h _ _ _
          | result b =>
            cases b with
            | false => exact inv_told h _ _ _
            | true =>
              refine ⟨h.nodup, h.next, h.from', done_more _ h.done, ?_⟩
              simp only [At]
              refine ⟨hn, hP, by rw [sets_append, hs]; simp [sets], .inr (.inr ⟨by trivial, by rw [hout]; rfl, ?_⟩)⟩
              exact grow _ hc
        · rw [hout] at ho; exact nomatch ho
      · exact absurd (.inl hp) hend
      · exact absurd (.inr hp) hend

theorem begins (ns : List Nat) (timeout : Nat) (t : Tool) :
    let u := ns.foldl (fun t n => request (.begin n timeout) t) t
    u.phase = t.phase ∧ u.nodes = t.nodes ∧ u.enumerated = t.enumerated ∧ u.nextIndex = t.nextIndex ∧
      u.outstanding = t.outstanding ++ ns.map (fun n => .begin n timeout) ∧ u.log = t.log ++ ns.map (fun n => .ask (.begin n timeout)) := by
  induction ns generalizing t with
  | nil => simp
  | cons n ns ih =>
    have := ih (request (.begin n timeout) t)
    simpa [request, List.append_assoc] using this

theorem sets_begins (ns : List Nat) (timeout : Nat) : sets (ns.map (fun n => Act.ask (.begin n timeout))) = [] := by
  induction ns with
  | nil => rfl
  | cons n ns ih => simpa [sets] using ih

theorem inv_start (P : Nat → Prop) (nodes : List Nat) (timeout : Nat) : Inv P (start nodes timeout) := by
  refine inv_pause ?_ false
  have hb := begins nodes timeout { nodes := nodes }
  simp only at hb
  obtain ⟨h1, h2, h3, h4, h5, h6⟩ := hb
  refine ⟨by rw [h3]; exact List.nodup_nil, by rw [h4, h3]; rfl, ?_, ?_, ?_⟩
  · rw [h3]; intro n hn; exact nomatch hn
  · rw [h3]; intro i n e; simp at e
  simp only [At]
  rw [h1]
  simp only
  refine ⟨h3, by rw [h5, h2]; simp, ?_, by rw [h6]; simpa using sets_begins nodes timeout⟩
  rw [h5]
  intro r hr
  simp at hr
  obtain ⟨n, _, e⟩ := hr
  exact ⟨n, timeout, e.symm⟩

theorem mem_sources {n : Nat} {name : Name} {es : List Ev} (h : .indication n name ∈ es) : n ∈ sources es := by
  induction es with
  | nil => exact nomatch h
  | cons e es ih =>
    rcases List.mem_cons.1 h with rfl | g
    · simp [sources]
    · cases e <;> simp [sources, ih g]

theorem inv_run (nodes : List Nat) (timeout : Nat) (es : List Ev) : Inv (fun n => n ∈ sources es) (run nodes timeout es) := by
  have gen : ∀ (fs : List Ev) (t : Tool), Inv (fun n => n ∈ sources es) t → (∀ n name, .indication n name ∈ fs → n ∈ sources es) →
      Inv (fun n => n ∈ sources es) (fs.foldl step t) := by
    intro fs
    induction fs with
    | nil => intro t ht _; exact ht
    | cons f fs ih =>
      intro t ht hf
      exact ih _ (inv_step ht f (fun n name e => hf n name (by rw [e]; exact List.mem_cons_self ..)))
        (fun n name hm => hf n name (List.mem_cons_of_mem _ hm))
  exact gen es _ (inv_start _ nodes timeout) (fun n name hm => mem_sources hm)

theorem pause_nodes (late : Bool) (t : Tool) : (pause late t).nodes = t.nodes := by
  simp only [pause]
  repeat' split
  all_goals first | rfl | (simp only [head]; split <;> rfl)

theorem step_nodes (t : Tool) (e : Ev) : (step t e).nodes = t.nodes := by
  simp only [step]
  split
  · rfl
  · cases e with
    | pause late => exact pause_nodes late t
    | indication n name => simp only [onIndication]; (repeat' split) <;> rfl
    | answer i a =>
      simp only
      split
      · rfl
      · rename_i r _
        cases r with
        | begin n m => simp only [onBegin]; (repeat' split) <;> rfl
        | getSet n name v => simp only [onSet]; (repeat' split) <;> rfl
        | save n => simp only [onSave]; (repeat' split) <;> rfl

theorem fold_nodes (es : List Ev) (t : Tool) : (es.foldl step t).nodes = t.nodes := by
  induction es generalizing t with
  | nil => rfl
  | cons e es ih => exact (ih _).trans (step_nodes t e)

theorem run_nodes (nodes : List Nat) (timeout : Nat) (es : List Ev) : (run nodes timeout es).nodes = nodes := by
  simp only [run]
  rw [fold_nodes, start, pause_nodes]
  exact (begins nodes timeout { nodes := nodes }).2.1

/-- **C145** (one index each): whatever happens, the `i`-th parameter that is set is set to `i`, on a node that was not asked before and
that has sent an indication. -/
theorem C145_indices (nodes : List Nat) (timeout : Nat) (es : List Ev) :
    ∃ a : List Nat, a.Nodup ∧ sets (run nodes timeout es).log = a.zipIdx ∧ (run nodes timeout es).enumerated <+: a ∧
      a.length ≤ (run nodes timeout es).enumerated.length + 1 ∧ ∀ n ∈ a, n ∈ sources es := by
  have h := (inv_raise (inv_run nodes timeout es)).loc
  simp only [At] at h
  obtain ⟨a, h1, h2, h3, h4, h5⟩ := h
  exact ⟨a, h1, h4, h2, h3, h5⟩

/-- **C145** (what was answered): each node in the list has been told to stop, has confirmed the index at which it is in the list and has saved it. -/
theorem C145_confirmed (nodes : List Nat) (timeout : Nat) (es : List Ev) (i n : Nat)
    (h : (run nodes timeout es).enumerated[i]? = some n) : ∃ name, (chain n name i).Sublist (run nodes timeout es).log :=
  (inv_run nodes timeout es).done i n h

/-- **C145** (the result): the list returned has each of the nodes once, and these are the nodes that were asked to have an index. -/
theorem C145_returned (nodes : List Nat) (timeout : Nat) (es : List Ev) (hn : nodes.Nodup) (h : (run nodes timeout es).phase = .returned) :
    (run nodes timeout es).enumerated.Perm nodes ∧ sets (run nodes timeout es).log = (run nodes timeout es).enumerated.zipIdx := by
  have hi := inv_run nodes timeout es
  have hl := hi.loc
  simp only [At, h] at hl
  rw [run_nodes] at hl
  exact ⟨(List.perm_ext_iff_of_nodup hi.nodup hn).2 hl.2, hl.1⟩

/-- The full claim: only the nodes that are to be enumerated are asked to have an index. -/
def C145_statement : Prop := ∀ (nodes : List Nat) (timeout : Nat) (es : List Ev), nodes.Nodup →
  ∀ n v, (n, v) ∈ sets (run nodes timeout es).log → n ∈ nodes

/-- What happens when the nodes answer as they should, one round for each node. -/
def round (n : Nat) (name : Name) (i : Nat) : List Ev :=
  [.indication n name, .pause false, .answer 0 (.result true), .pause false, .answer 0 (.param name i), .answer 0 (.result true), .pause false]

/-- An indication of node 50, which is none of the nodes 10 and 11. -/
def foreign : List Ev := [.answer 0 (.result true), .answer 0 (.result true), .pause false] ++ round 50 [105] 0

/-- **C145**, counterexample: a node that is no ESC, or that was found too late, is given an index if it sends an indication. -/
theorem C145_counterexample : ¬ C145_statement := by
  intro h
  have := h [10, 11] 60 foreign (by decide) 50 0 (by decide +kernel)
  exact absurd this (by decide)

/-- **C145**, when only the nodes to be enumerated send indications: the claim holds, and so there are no more indices than nodes. -/
theorem C145_partial (nodes : List Nat) (timeout : Nat) (es : List Ev) (hs : ∀ n ∈ sources es, n ∈ nodes) :
    (∀ n v, (n, v) ∈ sets (run nodes timeout es).log → n ∈ nodes ∧ v < nodes.length) := by
  intro n v hm
  obtain ⟨a, ha, he, _, _, hP⟩ := C145_indices nodes timeout es
  rw [he] at hm
  have h1 := List.mem_zipIdx_iff_getElem?.1 hm
  simp only at h1
  have h2 : n ∈ a := List.mem_of_getElem? h1
  refine ⟨hs n (hP n h2), ?_⟩
  have h3 : v < a.length := (List.getElem?_eq_some_iff.1 h1).1
  have h4 : a.length ≤ nodes.length := List.Nodup.length_le_of_subset ha (fun m hm => hs m (hP m hm))
  omega

theorem pause_grows (late : Bool) (t : Tool) : t.enumerated <+: (pause late t).enumerated := by
  simp only [pause]
  (repeat' split) <;> first | exact List.prefix_refl _ | exact List.prefix_append _ _ |
    (simp only [head]; split <;> first | exact List.prefix_refl _ | exact List.prefix_append _ _)

theorem step_grows (t : Tool) (e : Ev) : t.enumerated <+: (step t e).enumerated := by
  simp only [step]
  split
  · exact List.prefix_refl _
  · cases e with
    | pause late => exact pause_grows late t
    | indication n name => simp only [onIndication]; (repeat' split) <;> exact List.prefix_refl _
    | answer i a =>
      simp only
      split
      · exact List.prefix_refl _
      · rename_i r _
        cases r with
        | begin n m => simp only [onBegin]; (repeat' split) <;> exact List.prefix_refl _
        | getSet n name v => simp only [onSet]; (repeat' split) <;> exact List.prefix_refl _
        | save n => simp only [onSave]; (repeat' split) <;> exact List.prefix_refl _

theorem fold_grows (es : List Ev) (t : Tool) : t.enumerated <+: (es.foldl step t).enumerated := by
  induction es generalizing t with
  | nil => exact List.prefix_refl _
  | cons e es ih => exact (step_grows t e).trans (ih _)

/-- **C145** (other nodes): once any other node has been enumerated the function never returns. -/
theorem C145_stuck (nodes : List Nat) (timeout : Nat) (es fs : List Ev) (n : Nat) (h : n ∈ (run nodes timeout es).enumerated) (hn : n ∉ nodes) :
    (run nodes timeout (es ++ fs)).phase ≠ .returned := by
  intro hr
  have hl := (inv_run nodes timeout (es ++ fs)).loc
  simp only [At, hr] at hl
  rw [run_nodes] at hl
  refine hn ((hl.2 n).1 ?_)
  have hg := fold_grows fs (run nodes timeout es)
  rw [run, List.foldl_append]
  exact hg.subset h

theorem round_run (n : Nat) (name : Name) (t : Tool) (hp : t.phase = .listening none) (ho : t.outstanding = []) (hn : n ∉ t.enumerated) :
    ∃ log, (round n name t.nextIndex).foldl step t =
      head { t with phase := .setting n name true, outstanding := [], nextIndex := t.nextIndex + 1, enumerated := t.enumerated ++ [n], log := log } := by
  obtain ⟨nodes, phase, outstanding, enumerated, nextIndex, log⟩ := t
  simp only at hp ho hn
  subst hp ho
  exact ⟨_, by simp [round, step, onIndication, hn, pause, request, onBegin, onSet, onSave]; rfl⟩

theorem rounds_run (l : List (Nat × Name)) (t : Tool) (hp : t.phase = .listening none) (ho : t.outstanding = [])
    (hx : t.nextIndex = t.enumerated.length) (hl : l ≠ []) (hd : (t.enumerated ++ l.map Prod.fst).Nodup)
    (hm : ∀ n, n ∈ t.enumerated ++ l.map Prod.fst ↔ n ∈ t.nodes) :
    let u := ((l.zipIdx t.nextIndex).flatMap (fun p => round p.1.1 p.1.2 p.2)).foldl step t
    u.phase = .returned ∧ u.enumerated = t.enumerated ++ l.map Prod.fst := by
  induction l generalizing t with
  | nil => exact absurd rfl hl
  | cons p l ih =>
    obtain ⟨n, name⟩ := p
    have hn : n ∉ t.enumerated := by
      intro h
      rw [List.nodup_append] at hd
      exact hd.2.2 n h n (by simp) rfl
    obtain ⟨log, hr⟩ := round_run n name t hp ho hn
    simp only [List.zipIdx_cons, List.flatMap_cons, List.foldl_append, hr]
    cases l with
    | nil =>
      simp only [List.zipIdx_nil, List.flatMap_nil, List.foldl_nil, head]
      have : sameSet (t.enumerated ++ [n]) t.nodes = true := (sameSet_iff _ _).2 hm
      simp [this]
    | cons q l =>
      have : sameSet (t.enumerated ++ [n]) t.nodes = false := by
        rw [← Bool.not_eq_true]
        intro h
        have h1 := ((sameSet_iff _ _).1 h q.1).2 ((hm q.1).1 (by simp))
        have h2 : ((t.enumerated ++ [n]) ++ (q :: l).map Prod.fst).Nodup := by simpa using hd
        rw [List.nodup_append] at h2
        exact h2.2.2 q.1 h1 q.1 (by simp) rfl
      simp only [head, this, Bool.false_eq_true, if_false]
      have := ih { t with phase := .listening none, outstanding := [], nextIndex := t.nextIndex + 1, enumerated := t.enumerated ++ [n], log := log }
        rfl rfl (by simp [hx]) (by simp) (by simpa using hd) (by simpa using hm)
      simpa using this

theorem begins_run (k : Nat) (t : Tool) (j : Nat) (hp : t.phase = .starting j) (hl : t.outstanding.length = k)
    (hb : ∀ r ∈ t.outstanding, ∃ n m, r = .begin n m) :
    ∃ log, (List.replicate k (Ev.answer 0 (.result true))).foldl step t = { t with phase := .starting (j + k), outstanding := [], log := log } := by
  induction k generalizing t j with
  | zero =>
    refine ⟨t.log, ?_⟩
    obtain ⟨nodes, phase, outstanding, enumerated, nextIndex, log⟩ := t
    simp only at hp hl
    simp [hp, List.length_eq_zero_iff.1 hl]
  | succ k ih =>
    obtain ⟨nodes, phase, outstanding, enumerated, nextIndex, log⟩ := t
    simp only at hp hl hb
    subst hp
    cases outstanding with
    | nil => simp at hl
    | cons r rs =>
      obtain ⟨n, m, rfl⟩ := hb r (List.mem_cons_self ..)
      obtain ⟨log', h⟩ := ih (Tool.mk nodes (.starting (j + 1)) rs enumerated nextIndex (log ++ [.told (.begin n m) (.result true)])) (j + 1) rfl (by simpa using hl) (fun r hr => hb r (List.mem_cons_of_mem _ hr))
      refine ⟨log', ?_⟩
      rw [List.replicate_succ, List.foldl_cons]
      simp only [step, onBegin]
      simp only [reduceCtorEq, or_self, if_false, List.getElem?_cons_zero, List.eraseIdx_zero, List.tail_cons]
      rw [h]
      simp only
      rw [Nat.add_right_comm, Nat.add_assoc]

/-- **C145** (progress): if all nodes accept, and then send indications one after the other, in any order, and answer as asked, the function returns them
in this order. -/
theorem C145_all (nodes : List Nat) (timeout : Nat) (l : List (Nat × Name)) (hn : nodes.Nodup) (hl : (l.map Prod.fst).Perm nodes) :
    let u := run nodes timeout (List.replicate nodes.length (.answer 0 (.result true)) ++ [.pause false] ++
      l.zipIdx.flatMap (fun p => round p.1.1 p.1.2 p.2))
    u.phase = .returned ∧ u.enumerated = l.map Prod.fst := by
  cases nodes with
  | nil =>
    have := hl.eq_nil
    simp at this
    subst this
    simp [run, start, pause, head, sameSet, step]
  | cons a nodes =>
    have hb := begins (a :: nodes) timeout { nodes := a :: nodes }
    simp only at hb
    obtain ⟨h1, h2, h3, h4, h5, h6⟩ := hb
    have hs : start (a :: nodes) timeout = (a :: nodes).foldl (fun t n => request (.begin n timeout) t) { nodes := a :: nodes } := by
      rw [start, pause]
      rw [h1]
      simp only
      rw [if_pos (by rw [h2]; simp)]
    obtain ⟨log, hr⟩ := begins_run (a :: nodes).length _ 0 h1 (by rw [h5]; simp) (by
      rw [h5]
      intro r hr
      simp at hr
      rcases hr with hr | ⟨n, _, hr⟩
      · exact ⟨_, _, hr⟩
      · exact ⟨_, _, hr.symm⟩)
    simp only [run, List.foldl_append, hs, hr]
    generalize (a :: nodes).foldl (fun t n => request (.begin n timeout) t) { nodes := a :: nodes } = t0 at h1 h2 h3 h4 h5 h6
    obtain ⟨ns, ph, out, en, nx, lg⟩ := t0
    simp only at h1 h2 h3 h4 h5 h6
    subst h2 h3 h4
    simp only [List.foldl_cons, List.foldl_nil, step, pause]
    have hne : sameSet [] (a :: nodes) = false := by simp [sameSet]
    simp only [reduceCtorEq, or_self, if_false, Nat.zero_add, Nat.lt_irrefl, head, hne, Bool.false_eq_true]
    have := rounds_run l { nodes := a :: nodes, phase := .listening none, outstanding := [], enumerated := [], nextIndex := 0, log := log } rfl rfl rfl
      (by intro e; rw [e] at hl; exact nomatch hl.symm.eq_nil) (by simpa using hl.nodup_iff.2 hn) (by simpa using fun n => hl.mem_iff)
    simpa using this

/-- The answer that each request should have. -/
def expected : Req → Answer
  | .begin _ _ => .result true
  | .getSet _ name v => .param name v
  | .save _ => .result true

/-- **C145** (when it goes wrong): any other answer, or none, to any request ends the program. -/
theorem C145_raises (nodes : List Nat) (timeout : Nat) (es : List Ev) (i : Nat) (r : Req) (a : Answer)
    (hp : (run nodes timeout es).phase ≠ .returned) (hr : (run nodes timeout es).outstanding[i]? = some r) (ha : a ≠ expected r) :
    (run nodes timeout (es ++ [.answer i a])).phase = .raised := by
  have h := (inv_run nodes timeout es).loc
  rw [run, List.foldl_append, ← run]
  simp only [List.foldl_cons, List.foldl_nil, step]
  generalize run nodes timeout es = t at h hp hr
  split
  · rename_i he
    exact he.resolve_left hp
  · rw [hr]
    simp only
    cases r with
    | begin n m =>
      simp only [onBegin]
      split
      · exact absurd rfl ha
      · rfl
    | save n =>
      simp only [onSave]
      split
      · exact absurd rfl ha
      · rfl
    | getSet n name v =>
      simp only [onSet]
      split
      · rename_i nm w n' name' f hph
        simp only [At, hph] at h
        rcases h.2.2.2 with ⟨_, ho, _⟩ | ⟨_, ho, _⟩ | ⟨_, ho, _⟩
        · have hm := List.mem_of_getElem? hr
          rw [ho] at hm
          simp at hm
          obtain ⟨rfl, rfl, rfl⟩ := hm
          split
          · rename_i hv
            exact absurd (by rw [hv.1, hv.2]; rfl) ha
          · rfl
        · have hm := List.mem_of_getElem? hr
          rw [ho] at hm
          simp at hm
        · have hm := List.mem_of_getElem? hr
          rw [ho] at hm
          simp at hm
      · rfl

/-- **C145** (the deadline): if it has passed while the program waits for an indication, the program ends; otherwise it goes on to wait if none came. -/
theorem C145_deadline (nodes : List Nat) (timeout : Nat) (es : List Ev) (r : Option (Nat × Name))
    (hp : (run nodes timeout es).phase = .listening r) :
    (run nodes timeout (es ++ [.pause true])).phase = .raised ∧
    (r = none → run nodes timeout (es ++ [.pause false]) = run nodes timeout es) := by
  have happ : ∀ e : Ev, run nodes timeout (es ++ [e]) = step (run nodes timeout es) e := by
    intro e
    simp only [run, List.foldl_append, List.foldl_cons, List.foldl_nil]
  rw [happ, happ]
  simp only [step, hp, pause]
  refine ⟨by simp, ?_⟩
  rintro rfl
  simp

/-- **C145** (the end): when the function has returned or raised, nothing more is done. -/
theorem C145_end (nodes : List Nat) (timeout : Nat) (es fs : List Ev)
    (hp : (run nodes timeout es).phase = .returned ∨ (run nodes timeout es).phase = .raised) :
    run nodes timeout (es ++ fs) = run nodes timeout es := by
  rw [run, List.foldl_append, ← run]
  induction fs with
  | nil => rfl
  | cons f fs ih =>
    have hs : step (run nodes timeout es) f = run nodes timeout es := by simp only [step, if_pos hp]
    rw [List.foldl_cons, hs, ih]

/-- Three nodes, enumerated in another order than they were found, one of them indicating twice. -/
def three : List Ev := List.replicate 3 (.answer 0 (.result true)) ++ [.pause false] ++ round 11 [105] 0 ++ [.indication 11 [105]] ++ round 12 [105] 1 ++
  round 10 [120] 2

example : (run [10, 11, 12] 60 three).phase = .returned ∧ (run [10, 11, 12] 60 three).enumerated = [11, 12, 10] ∧
    sets (run [10, 11, 12] 60 three).log = [(11, 0), (12, 1), (10, 2)] := by decide +kernel

example : (50 : Nat) ∈ (run [10, 11] 60 foreign).enumerated ∧ (run [10, 11] 60 foreign).phase = .listening none := by decide +kernel

example : ∀ n ∈ sources three, n ∈ [10, 11, 12] := by decide +kernel

example : (run [10, 11] 60 [.answer 1 (.result true)]).outstanding[0]? = some (.begin 10 60) ∧ (.timeout : Answer) ≠ expected (.begin 10 60) := by decide +kernel

example : (run [10] 60 [.answer 0 (.result true), .pause false]).phase = .listening none := by decide +kernel

/-- A wrong answer ends the program, with the index set but not saved. -/
example : (run [10] 60 ([.answer 0 (.result true), .pause false] ++ (round 10 [105] 0).take 4 ++ [.answer 0 (.param [105] 3)])).phase = .raised ∧
    sets (run [10] 60 ([.answer 0 (.result true), .pause false] ++ (round 10 [105] 0).take 4 ++ [.answer 0 (.param [105] 3)])).log = [(10, 0)] := by
  decide +kernel

end Enumeration
end Dronecan
