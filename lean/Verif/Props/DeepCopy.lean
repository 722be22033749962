import Verif.Model.DeepCopy
import Verif.Props.Alias

/-!
# C136: deep copies

The copy made by `copy.deepcopy` behaves as the original would, whatever is done to it, and what is done to one does not affect the other; also for
messages with parts that are shared or contain each other.
-/

namespace Dronecan
namespace DeepCopy

/-! ## Specification -/

/-- References refer to something. -/
def Sound (h : Heap) : Prop :=
  (∀ o d : Nat, h.objs[o]? = some d → d < h.dicts.length) ∧
  ∀ (d : Nat) (fs : List Slot) (i : Nat), h.dicts[d]? = some fs →
    (∀ o, fs[i]? = some (Slot.comp o) → o < h.objs.length) ∧ ∀ os o, fs[i]? = some (Slot.arr os) → o ∈ os → o < h.objs.length

/-- A history with two messages, `a` and `b`: what is done to `a` and what to `b`. -/
def both (h : Heap) (a b : Nat) (ops : List (Bool × Op)) : Heap := ops.foldl (fun h op => act h (if op.1 then b else a) op.2) h

/-- What is done to one of them. -/
def only (w : Bool) (ops : List (Bool × Op)) : List Op := (ops.filter fun op => op.1 == w).map (·.2)

/-! ## Heaps that look the same -/

/-- Both are there and related, or none is. -/
inductive Opt (R : α → β → Prop) : Option α → Option β → Prop where
  | none : Opt R none none
  | some {x y} : R x y → Opt R (some x) (some y)

/-- The contents of two fields. -/
inductive SlotRel (R : Nat → Nat → Prop) : Slot → Slot → Prop where
  | prim (x) : SlotRel R (.prim x) (.prim x)
  | comp {o p} : R o p → SlotRel R (.comp o) (.comp p)
  | arr {os ps : List Nat} : (∀ k : Nat, Opt R os[k]? ps[k]?) → SlotRel R (.arr os) (.arr ps)

theorem Opt.mono {R R' : α → β → Prop} (h : ∀ x y, R x y → R' x y) {a b} (o : Opt R a b) : Opt R' a b := by
  cases o with
  | none => exact .none
  | some h' => exact .some (h _ _ h')

theorem SlotRel.mono {R R' : Nat → Nat → Prop} (h : ∀ x y, R x y → R' x y) {a b} (o : SlotRel R a b) : SlotRel R' a b := by
  cases o with
  | prim x => exact .prim x
  | comp h' => exact .comp (h _ _ h')
  | arr h' => exact .arr fun k => (h' k).mono h

/-- One to one. -/
def OneOne (R : Nat → Nat → Prop) : Prop := (∀ x y y', R x y → R x y' → y = y') ∧ ∀ x x' y, R x y → R x' y → x = x'

/-- Parts of two heaps correspond: objects by `R`, dictionaries by `S`. -/
structure Sim (R S : Nat → Nat → Prop) (h k : Heap) : Prop where
  r : OneOne R
  s : OneOne S
  obj : ∀ x y, R x y → ∃ d e, h.objs[x]? = some d ∧ k.objs[y]? = some e ∧ S d e
  dict : ∀ d e, S d e → ∃ fs gs, h.dicts[d]? = some fs ∧ k.dicts[e]? = some gs ∧ ∀ i : Nat, Opt (SlotRel R) fs[i]? gs[i]?

variable {R S : Nat → Nat → Prop} {h k : Heap}

theorem Sim.fields (sim : Sim R S h k) {x y : Nat} (hxy : R x y) (i : Nat) :
    Opt (SlotRel R) ((h.fields x).bind (·[i]?)) ((k.fields y).bind (·[i]?)) := by
  obtain ⟨d, e, h1, h2, h3⟩ := sim.obj x y hxy
  obtain ⟨fs, gs, h4, h5, h6⟩ := sim.dict d e h3
  simp only [Heap.fields, h1, h2, h4, h5, Option.bind_some]
  exact h6 i

theorem Sim.resolve (sim : Sim R S h k) (p : List AStep) : ∀ {x y : Nat}, R x y → Opt R (h.resolve x p) (k.resolve y p) := by
  induction p with
  | nil =>
    intro x y hxy
    obtain ⟨d, e, h1, h2, -⟩ := sim.obj x y hxy
    simp only [Heap.resolve, h1, h2, Option.isSome_some, if_true]
    exact .some hxy
  | cons a p ih =>
    intro x y hxy
    cases a with
    | field i =>
      have hf := sim.fields hxy i
      simp only [Heap.resolve]
      generalize (h.fields x).bind (·[i]?) = u at hf ⊢
      generalize (k.fields y).bind (·[i]?) = v at hf ⊢
      cases hf with
      | none => exact .none
      | some hs =>
        cases hs with
        | prim x => exact .none
        | comp ho => exact ih ho
        | arr _ => exact .none
    | item i n =>
      have hf := sim.fields hxy i
      simp only [Heap.resolve]
      generalize (h.fields x).bind (·[i]?) = u at hf ⊢
      generalize (k.fields y).bind (·[i]?) = v at hf ⊢
      cases hf with
      | none => exact .none
      | some hs =>
        cases hs with
        | prim x => exact .none
        | comp ho => exact .none
        | @arr os ps ha =>
          have := ha n
          simp only []
          generalize os[n]? = u at this ⊢
          generalize ps[n]? = v at this ⊢
          cases this with
          | none => exact .none
          | some ho => exact ih ho

theorem Sim.read (sim : Sim R S h k) {x y : Nat} (hxy : R x y) (p : List AStep) (i : Nat) : h.read x p i = k.read y p i := by
  have hr := sim.resolve p hxy
  simp only [Heap.read]
  generalize h.resolve x p = u at hr ⊢
  generalize k.resolve y p = v at hr ⊢
  cases hr with
  | none => rfl
  | some ho =>
    have hf := sim.fields ho i
    simp only []
    generalize Option.bind _ _ = u at hf ⊢
    generalize Option.bind (k.fields _) _ = v at hf ⊢
    cases hf with
    | none => rfl
    | some hs => cases hs <;> rfl

/-- The same field of corresponding objects gets corresponding contents. -/
theorem Sim.setField (sim : Sim R S h k) {x y : Nat} (hxy : R x y) (i : Nat) {a b : Slot} (hab : SlotRel R a b) :
    Sim R S (h.setField x i a) (k.setField y i b) := by
  obtain ⟨d, e, h1, h2, h3⟩ := sim.obj x y hxy
  simp only [Heap.setField, h1, h2]
  refine ⟨sim.r, sim.s, sim.obj, fun d' e' h' => ?_⟩
  obtain ⟨fs, gs, g1, g2, g3⟩ := sim.dict d' e' h'
  by_cases hd : d = d'
  · have he : e = e' := sim.s.1 d e e' h3 (hd ▸ h')
    subst hd he
    refine ⟨fs.set i a, gs.set i b, ?_, ?_, fun j => ?_⟩
    · simp [List.getElem?_modify, g1]
    · simp [List.getElem?_modify, g2]
    · rw [List.getElem?_set, List.getElem?_set]
      have hj := g3 j
      split
      · next hij =>
        subst hij
        by_cases hlt : i < fs.length
        · rw [List.getElem?_eq_getElem hlt] at hj
          have hlt' : i < gs.length := by
            apply Nat.lt_of_not_le
            intro hle
            rw [List.getElem?_eq_none hle] at hj
            cases hj
          rw [if_pos hlt, if_pos hlt']
          exact .some hab
        · have hlt' : ¬ i < gs.length := by
            intro hlt'
            rw [List.getElem?_eq_none (Nat.le_of_not_lt hlt), List.getElem?_eq_getElem hlt'] at hj
            cases hj
          rw [if_neg hlt, if_neg hlt']
          exact .none
      · exact hj
  · have he : e ≠ e' := fun he => hd (sim.s.2 d d' e h3 (he ▸ h'))
    exact ⟨fs, gs, by simp [List.getElem?_modify, hd, g1], by simp [List.getElem?_modify, he, g2], g3⟩

theorem get_lt {l : List α} {i : Nat} {a : α} (h : l[i]? = some a) : i < l.length := (List.getElem?_eq_some_iff.1 h).1

/-- New objects for the same dictionary. -/
theorem Sim.alloc (sim : Sim R S h k) {d e : Nat} (hde : S d e) :
    Sim (fun x y => R x y ∨ x = h.objs.length ∧ y = k.objs.length) S { h with objs := h.objs ++ [d] } { k with objs := k.objs ++ [e] } := by
  have lt : ∀ {x y}, R x y → x < h.objs.length ∧ y < k.objs.length := fun hxy => by
    obtain ⟨_, _, h1, h2, -⟩ := sim.obj _ _ hxy
    exact ⟨get_lt h1, get_lt h2⟩
  refine ⟨⟨fun x y y' h1 h2 => ?_, fun x x' y h1 h2 => ?_⟩, sim.s, fun x y hxy => ?_, fun d e hde => ?_⟩
  · rcases h1 with h1 | h1 <;> rcases h2 with h2 | h2
    · exact sim.r.1 _ _ _ h1 h2
    · have := lt h1; omega
    · have := lt h2; omega
    · omega
  · rcases h1 with h1 | h1 <;> rcases h2 with h2 | h2
    · exact sim.r.2 _ _ _ h1 h2
    · have := lt h1; omega
    · have := lt h2; omega
    · omega
  · rcases hxy with hxy | ⟨rfl, rfl⟩
    · obtain ⟨d', e', h1, h2, h3⟩ := sim.obj _ _ hxy
      exact ⟨d', e', by rw [List.getElem?_append_left (get_lt h1), h1], by rw [List.getElem?_append_left (get_lt h2), h2], h3⟩
    · exact ⟨d, e, by simp, by simp, hde⟩
  · obtain ⟨fs, gs, h1, h2, h3⟩ := sim.dict d e hde
    exact ⟨fs, gs, h1, h2, fun i => (h3 i).mono fun _ _ => SlotRel.mono fun _ _ => Or.inl⟩

/-- The same is done to corresponding objects. -/
theorem Sim.act (sim : Sim R S h k) {a b : Nat} (hab : R a b) (op : Op) :
    ∃ R' : Nat → Nat → Prop, Sim R' S (act h a op) (act k b op) ∧ (∀ x y, R x y → R' x y) ∧
      ∀ x y, R' x y → R x y ∨ y = k.objs.length := by
  cases op with
  | setInt p i v =>
    refine ⟨R, ?_, fun _ _ => id, fun _ _ => Or.inl⟩
    have hr := sim.resolve p hab
    simp only [DeepCopy.act, Heap.exec]
    generalize h.resolve a p = u at hr ⊢
    generalize k.resolve b p = w at hr ⊢
    cases hr with
    | none => exact sim
    | some ho =>
      have hf := sim.fields ho i
      simp only []
      generalize Option.bind (h.fields _) _ = u at hf ⊢
      generalize Option.bind (k.fields _) _ = w at hf ⊢
      cases hf with
      | none => exact sim
      | some hs =>
        cases hs with
        | prim x => exact sim.setField ho i (.prim v)
        | comp _ => exact sim
        | arr _ => exact sim
  | setComp p i p' =>
    have hr := sim.resolve p hab
    have hr' := sim.resolve p' hab
    simp only [DeepCopy.act, Heap.exec]
    generalize h.resolve a p = u at hr ⊢
    generalize k.resolve b p = w at hr ⊢
    generalize h.resolve a p' = u' at hr' ⊢
    generalize k.resolve b p' = w' at hr' ⊢
    cases hr with
    | none => exact ⟨R, sim, fun _ _ => id, fun _ _ => Or.inl⟩
    | @some x y ho =>
      cases hr' with
      | none => exact ⟨R, sim, fun _ _ => id, fun _ _ => Or.inl⟩
      | @some x' y' ho' =>
        have hf := sim.fields ho i
        obtain ⟨d, e, h1, h2, h3⟩ := sim.obj _ _ ho'
        simp only [h1, h2]
        generalize Option.bind (h.fields _) _ = u at hf ⊢
        generalize Option.bind (k.fields _) _ = w at hf ⊢
        cases hf with
        | none => exact ⟨R, sim, fun _ _ => id, fun _ _ => Or.inl⟩
        | some hs =>
          cases hs with
          | prim x => exact ⟨R, sim, fun _ _ => id, fun _ _ => Or.inl⟩
          | arr _ => exact ⟨R, sim, fun _ _ => id, fun _ _ => Or.inl⟩
          | comp _ =>
            refine ⟨_, (sim.alloc h3).setField (.inl ho) i (.comp (.inr ⟨rfl, rfl⟩)), fun _ _ => Or.inl, fun _ _ hxy => ?_⟩
            rcases hxy with hxy | ⟨-, rfl⟩
            · exact .inl hxy
            · exact .inr rfl
  | append p i p' =>
    refine ⟨R, ?_, fun _ _ => id, fun _ _ => Or.inl⟩
    have hr := sim.resolve p hab
    have hr' := sim.resolve p' hab
    simp only [DeepCopy.act, Heap.exec]
    generalize h.resolve a p' = u' at hr' ⊢
    generalize k.resolve b p' = w' at hr' ⊢
    generalize h.resolve a p = u at hr ⊢
    generalize k.resolve b p = w at hr ⊢
    cases hr' with
    | none => exact sim
    | @some x' y' ho' =>
      cases hr with
      | none => exact sim
      | @some x y ho =>
        have hf := sim.fields ho i
        obtain ⟨_, _, h1, h2, -⟩ := sim.obj _ _ ho'
        have l1 := get_lt h1
        have l2 := get_lt h2
        simp only []
        generalize Option.bind (h.fields _) _ = u at hf ⊢
        generalize Option.bind (k.fields _) _ = w at hf ⊢
        cases hf with
        | none => exact sim
        | some hs =>
          cases hs with
          | prim x => exact sim
          | comp _ => exact sim
          | @arr os ps ha =>
            simp only [if_pos l1, if_pos l2]
            refine sim.setField ho i (.arr fun n => ?_)
            have hlen : os.length = ps.length := by
              rcases Nat.lt_trichotomy os.length ps.length with hl | hl | hl
              · have := ha os.length
                rw [List.getElem?_eq_none (Nat.le_refl _), List.getElem?_eq_getElem hl] at this
                cases this
              · exact hl
              · have := ha ps.length
                rw [List.getElem?_eq_none (l := ps) (Nat.le_refl _), List.getElem?_eq_getElem hl] at this
                cases this
            rw [List.getElem?_append, List.getElem?_append, hlen]
            split
            · exact ha n
            · cases n - ps.length with
              | zero => exact .some ho'
              | succ n => exact .none

/-- What an operation on an object changes belongs to it. -/
theorem act_frame (sim : Sim R S h k) {a b : Nat} (hab : R a b) (op : Op) :
    (∃ new, (act k b op).objs = k.objs ++ new) ∧ ∀ e, (∀ d, ¬ S d e) → (act k b op).dicts[e]? = k.dicts[e]? := by
  have set : ∀ (k' : Heap) (x y i : Nat) (v : Slot), k'.dicts = k.dicts → R x y → (∀ e, k.objs[y]? = some e → k'.objs[y]? = some e) →
      (k'.setField y i v).objs = k'.objs ∧ ∀ e, (∀ d, ¬ S d e) → (k'.setField y i v).dicts[e]? = k.dicts[e]? := by
    intro k' x y i v hk hxy ho
    obtain ⟨d, e, -, h2, h3⟩ := sim.obj x y hxy
    simp only [Heap.setField, ho e h2]
    refine ⟨trivial, fun e' he' => ?_⟩
    have : e ≠ e' := fun h => he' d (h ▸ h3)
    rw [List.getElem?_modify, hk]; simp [this]
  have same : (∃ new, k.objs = k.objs ++ new) ∧ ∀ e, (∀ d, ¬ S d e) → k.dicts[e]? = k.dicts[e]? := ⟨⟨[], by simp⟩, fun _ _ => rfl⟩
  have res : ∀ p o, k.resolve b p = some o → ∃ x, R x o := by
    intro p o ho
    have := sim.resolve p hab
    rw [ho] at this
    generalize h.resolve a p = u at this
    cases this with
    | some h' => exact ⟨_, h'⟩
  cases op with
  | setInt p i v =>
    simp only [DeepCopy.act, Heap.exec]
    split
    · next o ho =>
      obtain ⟨x, hx⟩ := res p o ho
      split
      · obtain ⟨h1, h2⟩ := set k x o i (.prim v) rfl hx (fun _ => id)
        exact ⟨⟨[], by rw [h1]; simp⟩, h2⟩
      · exact same
    · exact same
  | setComp p i p' =>
    simp only [DeepCopy.act, Heap.exec]
    split
    · next o o' ho ho' =>
      obtain ⟨x, hx⟩ := res p o ho
      split
      · next d _ hd =>
        obtain ⟨h1, h2⟩ := set { k with objs := k.objs ++ [d] } x o i (.comp k.objs.length) rfl hx
          (fun e he => by rw [List.getElem?_append_left (get_lt he), he])
        exact ⟨⟨[d], by rw [h1]⟩, h2⟩
      · exact same
    · exact same
  | append p i p' =>
    simp only [DeepCopy.act]
    split
    · next o' ho' =>
      simp only [Heap.exec]
      split
      · next o ho =>
        obtain ⟨x, hx⟩ := res p o ho
        split
        · split
          · obtain ⟨h1, h2⟩ := set k x o i _ rfl hx (fun _ => id)
            exact ⟨⟨[], by rw [h1]; simp⟩, h2⟩
          · exact same
        · exact same
      · exact same
    · exact same

/-- A correspondence with another part of the heap is not affected. -/
theorem Sim.frame {R' S' : Nat → Nat → Prop} {h' k' : Heap} (sim : Sim R' S' h' k) (hobjs : ∃ new, k'.objs = k.objs ++ new)
    (hdicts : ∀ d e, S' d e → k'.dicts[e]? = k.dicts[e]?) : Sim R' S' h' k' := by
  obtain ⟨new, hn⟩ := hobjs
  refine ⟨sim.r, sim.s, fun x y hxy => ?_, fun d e hde => ?_⟩
  · obtain ⟨d, e, h1, h2, h3⟩ := sim.obj x y hxy
    exact ⟨d, e, h1, by rw [hn, List.getElem?_append_left (get_lt h2), h2], h3⟩
  · obtain ⟨fs, gs, h1, h2, h3⟩ := sim.dict d e hde
    exact ⟨fs, gs, h1, by rw [hdicts d e hde, h2], h3⟩

/-- Two messages that have nothing in common: each is like a message that is alone. -/
structure Apart (R₁ S₁ R₂ S₂ : Nat → Nat → Prop) (h₁ h₂ k : Heap) : Prop where
  left : Sim R₁ S₁ h₁ k
  right : Sim R₂ S₂ h₂ k
  dicts : ∀ d d' e, S₁ d e → ¬ S₂ d' e

theorem apart_run {x₁ x₂ a b : Nat} (ops : List (Bool × Op)) : ∀ {R₁ S₁ R₂ S₂ : Nat → Nat → Prop} {h₁ h₂ k : Heap}, Apart R₁ S₁ R₂ S₂ h₁ h₂ k →
    R₁ x₁ a → R₂ x₂ b → ∃ R₁' R₂', Apart R₁' S₁ R₂' S₂ (acts h₁ x₁ (only false ops)) (acts h₂ x₂ (only true ops)) (both k a b ops) ∧
      (∀ x y, R₁ x y → R₁' x y) ∧ ∀ x y, R₂ x y → R₂' x y := by
  induction ops with
  | nil => intro R₁ S₁ R₂ S₂ h₁ h₂ k hap h1 h2; exact ⟨R₁, R₂, hap, fun _ _ => id, fun _ _ => id⟩
  | cons x ops ih =>
    intro R₁ S₁ R₂ S₂ h₁ h₂ k hap h1 h2
    obtain ⟨w, op⟩ := x
    cases w with
    | false =>
      obtain ⟨R', hs, hR, -⟩ := hap.left.act h1 op
      obtain ⟨f1, f2⟩ := act_frame hap.left h1 op
      obtain ⟨R₁', R₂', g1, g2, g3⟩ := ih (k := act k a op)
        ⟨hs, hap.right.frame f1 fun d e hde => f2 e fun d' hd' => hap.dicts d' d e hd' hde, hap.dicts⟩ (hR _ _ h1) h2
      exact ⟨R₁', R₂', g1, fun x y hxy => g2 x y (hR x y hxy), g3⟩
    | true =>
      obtain ⟨R', hs, hR, -⟩ := hap.right.act h2 op
      obtain ⟨f1, f2⟩ := act_frame hap.right h2 op
      obtain ⟨R₁', R₂', g1, g2, g3⟩ := ih (k := act k b op)
        ⟨hap.left.frame f1 fun d e hde => f2 e fun d' hd' => hap.dicts d d' e hde hd', hs, hap.dicts⟩ h1 (hR _ _ h2)
      exact ⟨R₁', R₂', g1, g2, fun x y hxy => g3 x y (hR x y hxy)⟩

/-! ## Copying -/

/-- While copying from the heap `h₀`: what is in the memo has been copied, except for the objects in `PO` and the dictionaries in `PD`, which are being copied. -/
structure Inv (h₀ : Heap) (PO PD : Nat → Prop) (s : State) : Prop where
  po : ∃ A, s.heap.objs = h₀.objs ++ A
  pd : ∃ B, s.heap.dicts = h₀.dicts ++ B
  keyO : (s.objs.map (·.1)).Nodup
  valO : (s.objs.map (·.2)).Nodup
  keyD : (s.dicts.map (·.1)).Nodup
  valD : (s.dicts.map (·.2)).Nodup
  rngO : ∀ x y, (x, y) ∈ s.objs → x < h₀.objs.length ∧ h₀.objs.length ≤ y ∧ y < s.heap.objs.length
  rngD : ∀ x y, (x, y) ∈ s.dicts → x < h₀.dicts.length ∧ h₀.dicts.length ≤ y ∧ y < s.heap.dicts.length
  doneO : ∀ x y, (x, y) ∈ s.objs → PO x ∨ ∃ d e, h₀.objs[x]? = some d ∧ s.heap.objs[y]? = some e ∧ (d, e) ∈ s.dicts
  doneD : ∀ d e, (d, e) ∈ s.dicts → PD d ∨ ∃ fs gs, h₀.dicts[d]? = some fs ∧ s.heap.dicts[e]? = some gs ∧
    ∀ i : Nat, Opt (SlotRel fun x y => (x, y) ∈ s.objs) fs[i]? gs[i]?

/-- The memo grows. -/
structure Ext (s s' : State) : Prop where
  objs : ∀ x, x ∈ s.objs → x ∈ s'.objs
  dicts : ∀ x, x ∈ s.dicts → x ∈ s'.dicts
  len : s.objs.length ≤ s'.objs.length

theorem Ext.refl (s : State) : Ext s s := ⟨fun _ => id, fun _ => id, Nat.le_refl _⟩

theorem Ext.trans {s t u : State} (h : Ext s t) (g : Ext t u) : Ext s u :=
  ⟨fun x hx => g.objs x (h.objs x hx), fun x hx => g.dicts x (h.dicts x hx), Nat.le_trans h.len g.len⟩

/-- What is claimed of the copying of objects, for a bound on the depth. -/
def Spec (h₀ : Heap) (n : Nat) (rec : Nat → State → Option (Nat × State)) : Prop :=
  ∀ PO PD s o, Inv h₀ PO PD s → o < h₀.objs.length → h₀.objs.length - s.objs.length < n →
    ∃ o' s', rec o s = some (o', s') ∧ Inv h₀ PO PD s' ∧ Ext s s' ∧ (o, o') ∈ s'.objs

theorem items_spec {h₀ : Heap} {n : Nat} {rec : Nat → State → Option (Nat × State)} (hrec : Spec h₀ n rec) {PO PD : Nat → Prop} (os : List Nat) :
    ∀ s, Inv h₀ PO PD s → (∀ o ∈ os, o < h₀.objs.length) → h₀.objs.length - s.objs.length < n →
      ∃ os' s', items rec os s = some (os', s') ∧ Inv h₀ PO PD s' ∧ Ext s s' ∧ ∀ k : Nat, Opt (fun x y => (x, y) ∈ s'.objs) os[k]? os'[k]? := by
  induction os with
  | nil => intro s hi _ _; exact ⟨[], s, rfl, hi, .refl s, fun k => by simp; exact .none⟩
  | cons o os ih =>
    intro s hi hos hn
    obtain ⟨o', s1, e1, i1, x1, m1⟩ := hrec PO PD s o hi (hos o List.mem_cons_self) hn
    obtain ⟨os', s2, e2, i2, x2, m2⟩ := ih s1 i1 (fun o ho => hos o (List.mem_cons_of_mem _ ho)) (by have := x1.len; omega)
    refine ⟨o' :: os', s2, by simp only [items, e1, e2], i2, x1.trans x2, fun k => ?_⟩
    cases k with
    | zero => exact .some (x2.objs _ m1)
    | succ k => exact m2 k

theorem slot_spec {h₀ : Heap} {n : Nat} {rec : Nat → State → Option (Nat × State)} (hrec : Spec h₀ n rec) {PO PD : Nat → Prop} (x : Slot) (s : State)
    (hi : Inv h₀ PO PD s) (hc : ∀ o, x = .comp o → o < h₀.objs.length) (ha : ∀ os o, x = .arr os → o ∈ os → o < h₀.objs.length)
    (hn : h₀.objs.length - s.objs.length < n) :
    ∃ x' s', slot rec x s = some (x', s') ∧ Inv h₀ PO PD s' ∧ Ext s s' ∧ SlotRel (fun x y => (x, y) ∈ s'.objs) x x' := by
  cases x with
  | prim v => exact ⟨.prim v, s, rfl, hi, .refl s, .prim v⟩
  | comp o =>
    obtain ⟨o', s1, e1, i1, x1, m1⟩ := hrec PO PD s o hi (hc o rfl) hn
    exact ⟨.comp o', s1, by simp only [slot, e1, Option.map_some], i1, x1, .comp m1⟩
  | arr os =>
    obtain ⟨os', s1, e1, i1, x1, m1⟩ := items_spec hrec os s hi (fun o ho => ha os o rfl ho) hn
    exact ⟨.arr os', s1, by simp only [slot, e1, Option.map_some], i1, x1, .arr m1⟩

theorem slots_spec {h₀ : Heap} {n : Nat} {rec : Nat → State → Option (Nat × State)} (hrec : Spec h₀ n rec) {PO PD : Nat → Prop} (xs : List Slot) :
    ∀ s, Inv h₀ PO PD s → (∀ o, Slot.comp o ∈ xs → o < h₀.objs.length) → (∀ os o, Slot.arr os ∈ xs → o ∈ os → o < h₀.objs.length) →
      h₀.objs.length - s.objs.length < n →
      ∃ xs' s', slots rec xs s = some (xs', s') ∧ Inv h₀ PO PD s' ∧ Ext s s' ∧ ∀ i : Nat, Opt (SlotRel fun x y => (x, y) ∈ s'.objs) xs[i]? xs'[i]? := by
  induction xs with
  | nil => intro s hi _ _ _; exact ⟨[], s, rfl, hi, .refl s, fun k => by simp; exact .none⟩
  | cons x xs ih =>
    intro s hi hc ha hn
    obtain ⟨x', s1, e1, i1, x1, m1⟩ := slot_spec hrec x s hi (fun o ho => hc o (ho ▸ List.mem_cons_self)) (fun os o ho => ha os o (ho ▸ List.mem_cons_self)) hn
    obtain ⟨xs', s2, e2, i2, x2, m2⟩ := ih s1 i1 (fun o ho => hc o (List.mem_cons_of_mem _ ho)) (fun os o ho => ha os o (List.mem_cons_of_mem _ ho))
      (by have := x1.len; omega)
    refine ⟨x' :: xs', s2, by simp only [slots, e1, e2], i2, x1.trans x2, fun k => ?_⟩
    cases k with
    | zero => exact .some (m1.mono fun _ _ => x2.objs _)
    | succ k => exact m2 k

theorem lookup_some {l : List (Nat × Nat)} {a b : Nat} (h : l.lookup a = some b) : (a, b) ∈ l := by
  induction l with
  | nil => cases h
  | cons x l ih =>
    obtain ⟨c, d⟩ := x
    rw [List.lookup_cons] at h
    split at h
    · next he => rw [beq_iff_eq] at he; cases h; rw [he]; exact List.mem_cons_self
    · exact List.mem_cons_of_mem _ (ih h)

theorem lookup_none {l : List (Nat × Nat)} {a : Nat} (h : l.lookup a = none) : a ∉ l.map (·.1) := by
  induction l with
  | nil => simp
  | cons x l ih =>
    obtain ⟨c, d⟩ := x
    rw [List.lookup_cons] at h
    split at h
    · cases h
    · next he =>
      rw [List.map_cons, List.mem_cons, not_or]
      exact ⟨fun hac => by simp [hac] at he, ih h⟩

theorem nodup_snd {l : List (Nat × Nat)} (h : (l.map (·.1)).Nodup) {a b c : Nat} (h1 : (a, b) ∈ l) (h2 : (a, c) ∈ l) : b = c := by
  induction l with
  | nil => cases h1
  | cons x l ih =>
    rw [List.map_cons, List.nodup_cons] at h
    rw [List.mem_cons] at h1 h2
    rcases h1 with rfl | h1 <;> rcases h2 with h2 | h2
    · cases h2; rfl
    · exact absurd (List.mem_map.2 ⟨_, h2, rfl⟩) h.1
    · subst h2; exact absurd (List.mem_map.2 ⟨_, h1, rfl⟩) h.1
    · exact ih h.2 h1 h2

theorem nodup_fst {l : List (Nat × Nat)} (h : (l.map (·.2)).Nodup) {a b c : Nat} (h1 : (a, c) ∈ l) (h2 : (b, c) ∈ l) : a = b := by
  induction l with
  | nil => cases h1
  | cons x l ih =>
    rw [List.map_cons, List.nodup_cons] at h
    rw [List.mem_cons] at h1 h2
    rcases h1 with rfl | h1 <;> rcases h2 with h2 | h2
    · cases h2; rfl
    · exact absurd (List.mem_map.2 ⟨_, h2, rfl⟩) h.1
    · subst h2; exact absurd (List.mem_map.2 ⟨_, h1, rfl⟩) h.1
    · exact ih h.2 h1 h2

/-- The copy of an object is noted. -/
theorem Inv.beginObj {h₀ : Heap} {PO PD : Nat → Prop} {s : State} (hi : Inv h₀ PO PD s) {o : Nat} (ho : o < h₀.objs.length) (hn : o ∉ s.objs.map (·.1)) :
    Inv h₀ (fun x => x = o ∨ PO x) PD
      { s with heap := { s.heap with objs := s.heap.objs ++ [0] }, objs := (o, s.heap.objs.length) :: s.objs } := by
  obtain ⟨A, hA⟩ := hi.po
  have hlen : h₀.objs.length ≤ s.heap.objs.length := by rw [hA]; simp
  refine ⟨⟨A ++ [0], by simp [hA]⟩, hi.pd, List.nodup_cons.2 ⟨hn, hi.keyO⟩, List.nodup_cons.2 ⟨fun hm => ?_, hi.valO⟩, hi.keyD, hi.valD,
    fun x y hxy => ?_, hi.rngD, fun x y hxy => ?_, fun d e hde => ?_⟩
  · obtain ⟨⟨x, y⟩, h1, h2⟩ := List.mem_map.1 hm
    have := (hi.rngO x y h1).2.2
    simp only at h2
    omega
  · simp only [List.length_append, List.length_singleton]
    rcases List.mem_cons.1 hxy with hxy | hxy
    · cases hxy; exact ⟨ho, hlen, by omega⟩
    · have := hi.rngO x y hxy; omega
  · rcases List.mem_cons.1 hxy with hxy | hxy
    · cases hxy; exact .inl (.inl rfl)
    · rcases hi.doneO x y hxy with hp | ⟨d, e, h1, h2, h3⟩
      · exact .inl (.inr hp)
      · exact .inr ⟨d, e, h1, by simp only [List.getElem?_append_left (get_lt h2), h2], h3⟩
  · rcases hi.doneD d e hde with hp | ⟨fs, gs, h1, h2, h3⟩
    · exact .inl hp
    · exact .inr ⟨fs, gs, h1, h2, fun i => (h3 i).mono fun _ _ => SlotRel.mono fun _ _ => List.mem_cons_of_mem _⟩

/-- The copy of a dictionary is noted. -/
theorem Inv.beginDict {h₀ : Heap} {PO PD : Nat → Prop} {s : State} (hi : Inv h₀ PO PD s) {d : Nat} (hd : d < h₀.dicts.length) (hn : d ∉ s.dicts.map (·.1)) :
    Inv h₀ PO (fun x => x = d ∨ PD x)
      { s with heap := { s.heap with dicts := s.heap.dicts ++ [[]] }, dicts := (d, s.heap.dicts.length) :: s.dicts } := by
  obtain ⟨B, hB⟩ := hi.pd
  have hlen : h₀.dicts.length ≤ s.heap.dicts.length := by rw [hB]; simp
  refine ⟨hi.po, ⟨B ++ [[]], by simp [hB]⟩, hi.keyO, hi.valO, List.nodup_cons.2 ⟨hn, hi.keyD⟩, List.nodup_cons.2 ⟨fun hm => ?_, hi.valD⟩,
    hi.rngO, fun x y hxy => ?_, fun x y hxy => ?_, fun x y hxy => ?_⟩
  · obtain ⟨⟨x, y⟩, h1, h2⟩ := List.mem_map.1 hm
    have := (hi.rngD x y h1).2.2
    simp only at h2
    omega
  · simp only [List.length_append, List.length_singleton]
    rcases List.mem_cons.1 hxy with hxy | hxy
    · cases hxy; exact ⟨hd, hlen, by omega⟩
    · have := hi.rngD x y hxy; omega
  · rcases hi.doneO x y hxy with hp | ⟨d, e, h1, h2, h3⟩
    · exact .inl hp
    · exact .inr ⟨d, e, h1, h2, List.mem_cons_of_mem _ h3⟩
  · rcases List.mem_cons.1 hxy with hxy | hxy
    · cases hxy; exact .inl (.inl rfl)
    · rcases hi.doneD x y hxy with hp | ⟨fs, gs, h1, h2, h3⟩
      · exact .inl (.inr hp)
      · exact .inr ⟨fs, gs, h1, by simp only [List.getElem?_append_left (get_lt h2), h2], h3⟩

/-- The copy of an object gets its dictionary. -/
theorem Inv.endObj {h₀ : Heap} {PO PD : Nat → Prop} {s : State} {o o' d d' : Nat} (hi : Inv h₀ (fun x => x = o ∨ PO x) PD s) (hm : (o, o') ∈ s.objs)
    (ho : h₀.objs[o]? = some d) (hd : (d, d') ∈ s.dicts) : Inv h₀ PO PD { s with heap := { s.heap with objs := s.heap.objs.set o' d' } } := by
  obtain ⟨A, hA⟩ := hi.po
  have hr := hi.rngO o o' hm
  refine ⟨⟨A.set (o' - h₀.objs.length) d', by simp only [hA, List.set_append, if_neg (Nat.not_lt.2 hr.2.1)]⟩, hi.pd, hi.keyO, hi.valO, hi.keyD, hi.valD,
    fun x y hxy => by simpa using hi.rngO x y hxy, hi.rngD, fun x y hxy => ?_, hi.doneD⟩
  by_cases hx : x = o
  · subst hx
    rw [nodup_snd hi.keyO hxy hm]
    exact .inr ⟨d, d', ho, by simp [hr.2.2], hd⟩
  · have hy : o' ≠ y := fun h => hx (nodup_fst hi.valO hxy (h ▸ hm))
    rcases hi.doneO x y hxy with (hp | hp) | ⟨d, e, h1, h2, h3⟩
    · exact absurd hp hx
    · exact .inl hp
    · exact .inr ⟨d, e, h1, by simp only [List.getElem?_set_ne hy, h2], h3⟩

/-- The copy of a dictionary gets its fields. -/
theorem Inv.endDict {h₀ : Heap} {PO PD : Nat → Prop} {s : State} {d d' : Nat} {fs gs : List Slot} (hi : Inv h₀ PO (fun x => x = d ∨ PD x) s)
    (hm : (d, d') ∈ s.dicts) (hd : h₀.dicts[d]? = some fs) (hf : ∀ i : Nat, Opt (SlotRel fun x y => (x, y) ∈ s.objs) fs[i]? gs[i]?) :
    Inv h₀ PO PD { s with heap := { s.heap with dicts := s.heap.dicts.set d' gs } } := by
  obtain ⟨B, hB⟩ := hi.pd
  have hr := hi.rngD d d' hm
  refine ⟨hi.po, ⟨B.set (d' - h₀.dicts.length) gs, by simp only [hB, List.set_append, if_neg (Nat.not_lt.2 hr.2.1)]⟩, hi.keyO, hi.valO, hi.keyD, hi.valD,
    hi.rngO, fun x y hxy => by simpa using hi.rngD x y hxy, hi.doneO, fun x y hxy => ?_⟩
  by_cases hx : x = d
  · subst hx
    rw [nodup_snd hi.keyD hxy hm]
    exact .inr ⟨fs, gs, hd, by simp [hr.2.2], hf⟩
  · have hy : d' ≠ y := fun h => hx (nodup_fst hi.valD hxy (h ▸ hm))
    rcases hi.doneD x y hxy with (hp | hp) | ⟨fs', gs', h1, h2, h3⟩
    · exact absurd hp hx
    · exact .inl hp
    · exact .inr ⟨fs', gs', h1, by simp only [List.getElem?_set_ne hy, h2], h3⟩

/-- Fewer objects have been copied than there are. -/
theorem Inv.room {h₀ : Heap} {PO PD : Nat → Prop} {s : State} (hi : Inv h₀ PO PD s) {o : Nat} (ho : o < h₀.objs.length) (hn : o ∉ s.objs.map (·.1)) :
    s.objs.length < h₀.objs.length := by
  have h1 : (o :: s.objs.map (·.1)).Nodup := List.nodup_cons.2 ⟨hn, hi.keyO⟩
  have h2 := List.Nodup.length_le_of_subset (l₂ := List.range h₀.objs.length) h1 (fun x hx => by
    rw [List.mem_range]
    rcases List.mem_cons.1 hx with rfl | hx
    · exact ho
    · obtain ⟨⟨a, b⟩, h1, rfl⟩ := List.mem_map.1 hx
      exact (hi.rngO a b h1).1)
  simp only [List.length_cons, List.length_map, List.length_range] at h2
  exact h2

theorem copyObj_spec {h₀ : Heap} (hs : Sound h₀) (n : Nat) : Spec h₀ n (copyObj n) := by
  induction n with
  | zero => intro PO PD s o _ _ h; omega
  | succ n ih =>
    intro PO PD s o hi ho hn
    cases hl : s.objs.lookup o with
    | some o' => exact ⟨o', s, by simp only [copyObj, hl], hi, .refl s, lookup_some hl⟩
    | none =>
      have hnew := lookup_none hl
      have hroom := hi.room ho hnew
      obtain ⟨A, hA⟩ := hi.po
      obtain ⟨B, hB⟩ := hi.pd
      have hd : h₀.objs[o]? = some h₀.objs[o] := List.getElem?_eq_getElem ho
      have hd' : s.heap.objs[o]? = some h₀.objs[o] := by rw [hA, List.getElem?_append_left ho, hd]
      generalize h₀.objs[o] = d at hd hd'
      have hdl := hs.1 o d hd
      have i1 := hi.beginObj ho hnew
      cases hld : s.dicts.lookup d with
      | some d' =>
        refine ⟨s.heap.objs.length, _, by simp only [copyObj, hl, hd', hld], i1.endObj List.mem_cons_self hd (lookup_some hld),
          ⟨fun _ => List.mem_cons_of_mem _, fun _ => id, by simp⟩, List.mem_cons_self⟩
      | none =>
        have i2 := i1.beginDict hdl (lookup_none hld)
        have hf : h₀.dicts[d]? = some h₀.dicts[d] := List.getElem?_eq_getElem hdl
        have hf' : s.heap.dicts[d]? = some h₀.dicts[d] := by rw [hB, List.getElem?_append_left hdl, hf]
        generalize h₀.dicts[d] = fs at hf hf'
        obtain ⟨fs', s3, e3, i3, x3, m3⟩ := slots_spec ih fs _ i2
          (fun o ho => by obtain ⟨i, hi⟩ := List.mem_iff_getElem?.1 ho; exact (hs.2 d fs i hf).1 o hi)
          (fun os o hos ho => by obtain ⟨i, hi⟩ := List.mem_iff_getElem?.1 hos; exact (hs.2 d fs i hf).2 os o hi ho)
          (by simp only [List.length_cons]; omega)
        have mo := x3.objs _ List.mem_cons_self
        have md := x3.dicts _ List.mem_cons_self
        refine ⟨s.heap.objs.length, _, by simp only [copyObj, hl, hd', hld, hf', e3], (i3.endDict md hf m3).endObj mo hd md,
          ⟨fun x hx => x3.objs x (List.mem_cons_of_mem _ hx), fun x hx => x3.dicts x (List.mem_cons_of_mem _ hx), ?_⟩, mo⟩
        have := x3.len
        simp only [List.length_cons] at this ⊢
        omega

/-- After copying. -/
theorem Inv.sim {h₀ : Heap} {s : State} (hi : Inv h₀ (fun _ => False) (fun _ => False) s) :
    Sim (fun x y => (x, y) ∈ s.objs) (fun x y => (x, y) ∈ s.dicts) h₀ s.heap :=
  ⟨⟨fun _ _ _ => nodup_snd hi.keyO, fun _ _ _ => nodup_fst hi.valO⟩, ⟨fun _ _ _ => nodup_snd hi.keyD, fun _ _ _ => nodup_fst hi.valD⟩,
    fun x y hxy => (hi.doneO x y hxy).resolve_left id, fun x y hxy => (hi.doneD x y hxy).resolve_left id⟩

theorem opt_refl {R : α → α → Prop} (l : List α) (h : ∀ x ∈ l, R x x) (i : Nat) : Opt R l[i]? l[i]? := by
  cases hx : l[i]? with
  | none => exact .none
  | some x => exact .some (h x (List.mem_of_getElem? hx))

theorem sim_self {h : Heap} (hs : Sound h) {k : Heap} (ho : ∃ A, k.objs = h.objs ++ A) (hd : ∃ B, k.dicts = h.dicts ++ B) :
    Sim (fun x y => x = y ∧ x < h.objs.length) (fun x y => x = y ∧ x < h.dicts.length) h k := by
  obtain ⟨A, hA⟩ := ho
  obtain ⟨B, hB⟩ := hd
  refine ⟨⟨fun x y y' h1 h2 => h1.1.symm.trans h2.1, fun x y y' h1 h2 => h1.1.trans h2.1.symm⟩,
    ⟨fun x y y' h1 h2 => h1.1.symm.trans h2.1, fun x y y' h1 h2 => h1.1.trans h2.1.symm⟩, fun x y hxy => ?_, fun d e hde => ?_⟩
  · obtain ⟨rfl, hlt⟩ := hxy
    have h1 : h.objs[x]? = some h.objs[x] := List.getElem?_eq_getElem hlt
    exact ⟨_, _, h1, by rw [hA, List.getElem?_append_left hlt, h1], rfl, hs.1 x _ h1⟩
  · obtain ⟨rfl, hlt⟩ := hde
    have h1 : h.dicts[d]? = some h.dicts[d] := List.getElem?_eq_getElem hlt
    refine ⟨_, _, h1, by rw [hB, List.getElem?_append_left hlt, h1], fun i => ?_⟩
    have h2 := hs.2 d _ i h1
    generalize h.dicts[d] = fs at h1 h2
    cases hx : fs[i]? with
    | none => exact .none
    | some x =>
      rw [hx] at h2
      cases x with
      | prim v => exact .some (.prim v)
      | comp o => exact .some (.comp ⟨rfl, h2.1 o rfl⟩)
      | arr os => exact .some (.arr fun k => opt_refl os (fun o ho => ⟨rfl, h2.2 os o rfl ho⟩) k)

/-- `copy.deepcopy` of a message, whatever parts of it are shared or contain each other, returns a new object. From then on, whatever is done to the copy and to any
other object that there was: the copy reads as the original would if only what was done to the copy had been done to it, and everything else reads as if there were no copy. -/
theorem C136_deepcopy (h : Heap) (hs : Sound h) (o : Nat) (ho : o < h.objs.length) :
    ∃ c h', deepcopy h o = some (c, h') ∧ h.objs.length ≤ c ∧ ∀ (a : Nat), a < h.objs.length → ∀ (ops : List (Bool × Op)) (p : List AStep) (i : Nat),
      (both h' a c ops).read c p i = (acts h o (only true ops)).read o p i ∧
      ∀ x, x < h.objs.length → (both h' a c ops).read x p i = (acts h a (only false ops)).read x p i := by
  obtain ⟨c, s, e1, i1, -, m1⟩ := copyObj_spec hs (h.objs.length + 1) (fun _ => False) (fun _ => False) { heap := h } o
    ⟨⟨[], by simp⟩, ⟨[], by simp⟩, .nil, .nil, .nil, .nil, (fun _ _ h => nomatch h), (fun _ _ h => nomatch h), (fun _ _ h => nomatch h), (fun _ _ h => nomatch h)⟩
    ho (by simp only [List.length_nil]; omega)
  refine ⟨c, s.heap, by simp only [deepcopy, e1, Option.map_some], (i1.rngO o c m1).2.1, fun a ha ops p i => ?_⟩
  obtain ⟨R₁, R₂, hap, h1, h2⟩ := apart_run (x₁ := a) (x₂ := o) (a := a) (b := c) ops
    ⟨sim_self hs i1.po i1.pd, i1.sim, fun d d' e h1 h2 => by have := (i1.rngD d' e h2).2.1; obtain ⟨rfl, h1⟩ := h1; omega⟩ ⟨rfl, ha⟩ m1
  exact ⟨(hap.right.read (h2 _ _ m1) p i).symm, fun x hx => (hap.left.read (h1 _ _ ⟨rfl, hx⟩) p i).symm⟩

/-- Right after copying both read the same. -/
theorem C136_same (h : Heap) (hs : Sound h) (o : Nat) (ho : o < h.objs.length) : ∃ c h', deepcopy h o = some (c, h') ∧ c ≠ o ∧
    ∀ p i, h'.read c p i = h.read o p i ∧ ∀ x, x < h.objs.length → h'.read x p i = h.read x p i := by
  obtain ⟨c, h', e, hc, H⟩ := C136_deepcopy h hs o ho
  exact ⟨c, h', e, by omega, fun p i => H o ho [] p i⟩

theorem acts_frame {a b : Nat} (ops : List Op) : ∀ {R S : Nat → Nat → Prop} {h k : Heap}, Sim R S h k → R a b →
    (∃ new, (acts k b ops).objs = k.objs ++ new) ∧ ∀ e, (∀ d, ¬ S d e) → (acts k b ops).dicts[e]? = k.dicts[e]? := by
  induction ops with
  | nil => intro R S h k _ _; exact ⟨⟨[], by simp [acts]⟩, fun _ _ => rfl⟩
  | cons op ops ih =>
    intro R S h k sim hab
    obtain ⟨R', hs, hR, -⟩ := sim.act hab op
    obtain ⟨⟨n1, f1⟩, f2⟩ := act_frame sim hab op
    obtain ⟨⟨n2, g1⟩, g2⟩ := ih hs (hR _ _ hab)
    exact ⟨⟨n1 ++ n2, by show (acts (act k b op) b ops).objs = _; rw [g1, f1, List.append_assoc]⟩,
      fun e he => (g2 e he).trans (f2 e he)⟩

theorem resolve_snoc {h : Heap} (st : AStep) {y : Nat} (p : List AStep) : ∀ {a x : Nat}, h.resolve a p = some x → h.resolve x [st] = some y → h.resolve a (p ++ [st]) = some y := by
  induction p with
  | nil =>
    intro a x h1 h2
    simp only [Heap.resolve] at h1
    split at h1
    · cases h1; exact h2
    · cases h1
  | cons b p ih =>
    intro a x h1 h2
    cases b with
    | field i =>
      simp only [Heap.resolve, List.cons_append] at h1 ⊢
      split at h1
      · next o ho => exact ih h1 h2
      · cases h1
    | item i n =>
      simp only [Heap.resolve, List.cons_append] at h1 ⊢
      split at h1
      · next os hos =>
        split at h1
        · next o ho => exact ih h1 h2
        · cases h1
      · cases h1

/-- The parts of a message, in a heap that contains another. -/
theorem sim_part {h : Heap} (hs : Sound h) (a : Nat) {k : Heap} (ho : ∃ A, k.objs = h.objs ++ A) (hd : ∀ d, h.Holds a d → k.dicts[d]? = h.dicts[d]?) :
    Sim (fun x y => x = y ∧ ∃ p, h.resolve a p = some x) (fun d e => d = e ∧ h.Holds a d) h k := by
  obtain ⟨A, hA⟩ := ho
  refine ⟨⟨fun x y y' h1 h2 => h1.1.symm.trans h2.1, fun x y y' h1 h2 => h1.1.trans h2.1.symm⟩,
    ⟨fun x y y' h1 h2 => h1.1.symm.trans h2.1, fun x y y' h1 h2 => h1.1.trans h2.1.symm⟩, fun x y hxy => ?_, fun d e hde => ?_⟩
  · obtain ⟨rfl, p, hp⟩ := hxy
    have hlt := resolve_lt h a p x hp
    have h1 : h.objs[x]? = some h.objs[x] := List.getElem?_eq_getElem hlt
    exact ⟨_, _, h1, by rw [hA, List.getElem?_append_left hlt, h1], rfl, p, x, hp, h1⟩
  · obtain ⟨rfl, hh⟩ := hde
    obtain ⟨p, x, hp, hx⟩ := hh
    have hlt := hs.1 x d hx
    have h1 : h.dicts[d]? = some h.dicts[d] := List.getElem?_eq_getElem hlt
    refine ⟨_, _, h1, by rw [hd d ⟨p, x, hp, hx⟩, h1], fun i => ?_⟩
    have h2 := hs.2 d _ i h1
    have hf : (h.fields x).bind (·[i]?) = h.dicts[d][i]? := by simp only [Heap.fields, hx, Option.bind_some, h1]
    generalize h.dicts[d] = fs at h1 h2 hf
    cases hv : fs[i]? with
    | none => exact .none
    | some v =>
      rw [hv] at h2 hf
      cases v with
      | prim v => exact .some (.prim v)
      | comp o =>
        have := h2.1 o rfl
        exact .some (.comp ⟨rfl, p ++ [.field i], resolve_snoc _ p hp (by simp [Heap.resolve, hf, this])⟩)
      | arr os =>
        refine .some (.arr fun k => ?_)
        cases hk : os[k]? with
        | none => exact .none
        | some o =>
          have := h2.2 os o rfl (List.mem_of_getElem? hk)
          exact .some ⟨rfl, p ++ [.item i k], resolve_snoc _ p hp (by simp [Heap.resolve, hf, hk, this])⟩

theorem both_false (a b : Nat) (ops : List Op) : ∀ k, both k a b (ops.map (false, ·)) = acts k a ops := by
  induction ops with
  | nil => intro k; rfl
  | cons op ops ih => intro k; exact ih (act k a op)

/-- With a deep copy, assigning a nested structure is what C61 asks for: after `outer.i = copy.deepcopy(inner)`, `outer.i` keeps reading as `inner` did, whatever is done to
`inner`, unless `outer` is itself part of `inner`. -/
theorem C136_assign (h : Heap) (hs : Sound h) (outer i inner old dout : Nat) (fs : List Slot) (hin : inner < h.objs.length) (ho : h.objs[outer]? = some dout)
    (hd : h.dicts[dout]? = some fs) (hf : fs[i]? = some (.comp old)) (hpart : ¬ h.Holds inner dout) :
    ∃ c h', deepcopy h inner = some (c, h') ∧ ∀ (ops : List Op) (p : List AStep) (j : Nat),
      (acts (h'.exec (.setComp outer [] i c [])) inner ops).read outer (.field i :: p) j = h.read inner p j := by
  obtain ⟨c, s, e1, i1, -, m1⟩ := copyObj_spec hs (h.objs.length + 1) (fun _ => False) (fun _ => False) { heap := h } inner
    ⟨⟨[], by simp⟩, ⟨[], by simp⟩, .nil, .nil, .nil, .nil, (fun _ _ h => nomatch h), (fun _ _ h => nomatch h), (fun _ _ h => nomatch h), (fun _ _ h => nomatch h)⟩
    hin (by simp only [List.length_nil]; omega)
  refine ⟨c, s.heap, by simp only [deepcopy, e1, Option.map_some], fun ops p j => ?_⟩
  obtain ⟨A, hA⟩ := i1.po
  obtain ⟨B, hB⟩ := i1.pd
  have ho' : s.heap.objs[outer]? = some dout := by rw [hA, List.getElem?_append_left (get_lt ho), ho]
  have hd' : s.heap.dicts[dout]? = some fs := by rw [hB, List.getElem?_append_left (get_lt hd), hd]
  obtain ⟨din, dc, -, hc, hdc⟩ := i1.sim.obj _ _ m1
  have hout : s.heap.resolve outer [] = some outer := by simp [Heap.resolve, ho']
  have hcr : s.heap.resolve c [] = some c := by simp [Heap.resolve, hc]
  have hfo : (s.heap.fields outer).bind (·[i]?) = some (.comp old) := by simp [Heap.fields, ho', hd', hf]
  have hex : s.heap.exec (.setComp outer [] i c []) =
      { objs := s.heap.objs ++ [dc], dicts := s.heap.dicts.modify dout (·.set i (.comp s.heap.objs.length)) } := by
    simp only [Heap.exec, hout, hcr, hfo, hc, Heap.setField, List.getElem?_append_left (get_lt ho'), ho']
  rw [hex]
  generalize hk : ({ objs := s.heap.objs ++ [dc], dicts := s.heap.dicts.modify dout (·.set i (.comp s.heap.objs.length)) } : Heap) = k
  have hko : k.objs = h.objs ++ (A ++ [dc]) := by rw [← hk, ← List.append_assoc, ← hA]
  have hne : ∀ d, d ≠ dout → k.dicts[d]? = s.heap.dicts[d]? := fun d hne => by rw [← hk]; simp [List.getElem?_modify, Ne.symm hne]
  have sim1 := sim_part hs inner (k := k) ⟨_, hko⟩ fun d hh => by
    have hdd : d ≠ dout := fun e => hpart (e ▸ hh)
    obtain ⟨q, x, hq, hx⟩ := hh
    rw [hne d hdd, hB, List.getElem?_append_left (hs.1 x d hx)]
  have sim2 : Sim _ _ h k := i1.sim.frame ⟨[dc], by rw [← hk]⟩ fun d e hde => hne e (by have := (i1.rngD d e hde).2.1; have := get_lt hd; omega)
  have hin' : h.resolve inner [] = some inner := by simp [Heap.resolve, hin]
  obtain ⟨R₁, R₂, hap, -, h2⟩ := apart_run (x₁ := inner) (x₂ := inner) (a := inner) (b := c) (ops.map (false, ·))
    ⟨sim1, sim2, fun d d' e h1 h2 => by
      have := (i1.rngD d' e h2).2.1
      obtain ⟨rfl, q, x, hq, hx⟩ := h1
      have := hs.1 x d hx
      omega⟩ ⟨rfl, [], hin'⟩ m1
  obtain ⟨⟨new, g1⟩, g2⟩ := acts_frame ops sim1 (a := inner) ⟨rfl, [], hin'⟩
  rw [both_false] at hap
  have hr := hap.right.read (h2 _ _ m1) p j
  have hnil : only true (ops.map (false, ·)) = [] := by simp [only, List.filter_map]
  rw [hnil] at hr
  refine Eq.trans ?_ hr.symm
  have hkc : k.objs[c]? = some dc := by rw [← hk]; simp only [List.getElem?_append_left (get_lt hc), hc]
  have hkn : k.objs[s.heap.objs.length]? = some dc := by rw [← hk]; simp
  have hkf : k.dicts[dout]? = some (fs.set i (.comp s.heap.objs.length)) := by rw [← hk]; simp [List.getElem?_modify, hd']
  have hkx : ∀ {x d : Nat}, k.objs[x]? = some d → (acts k inner ops).objs[x]? = some d := fun hx => by
    rw [g1, List.getElem?_append_left (get_lt hx), hx]
  have hfin : ((acts k inner ops).fields outer).bind (·[i]?) = some (.comp s.heap.objs.length) := by
    have : k.objs[outer]? = some dout := by rw [← hk]; simp only [List.getElem?_append_left (get_lt ho'), ho']
    simp only [Heap.fields, hkx this, Option.bind_some, g2 dout (fun d hdd => hpart (hdd.1 ▸ hdd.2)), hkf]
    simp [get_lt hf]
  have step : (acts k inner ops).read outer (.field i :: p) j = (acts k inner ops).read s.heap.objs.length p j := by
    simp only [Heap.read, Heap.resolve, hfin]
  rw [step]
  exact read_shared _ _ _ dc (hkx hkn) (hkx hkc) p j

/-! ## Concrete cases -/

/-- Object 0 is a message with an integer, a structure (object 1) and an array that contains that structure twice; object 1 contains the message itself. -/
def tangled : Heap := ⟨[0, 1], [[.prim 7, .comp 1, .arr [1, 1]], [.prim 3, .comp 0]]⟩

example : Sound tangled := by
  refine ⟨fun o d hd => ?_, fun d fs i hd => ?_⟩
  · match o with
    | 0 | 1 => simp [tangled] at hd ⊢; omega
    | n + 2 => simp [tangled] at hd
  · match d with
    | 0 =>
      simp only [tangled, List.getElem?_cons_zero, Option.some.injEq] at hd
      subst hd
      match i with
      | 0 | 1 => simp [tangled]
      | 2 => refine ⟨(fun o h => nomatch h), fun os o h ho => ?_⟩; cases h; simp [tangled] at ho ⊢; omega
      | n + 3 => simp
    | 1 =>
      simp only [tangled, List.getElem?_cons_succ, List.getElem?_cons_zero, Option.some.injEq] at hd
      subst hd
      match i with
      | 0 | 1 => simp [tangled]
      | n + 2 => simp
    | n + 2 => simp [tangled] at hd

/-- The copy is tangled in the same way. -/
example : deepcopy tangled 0 = some (2, ⟨[0, 1, 2, 3], [[.prim 7, .comp 1, .arr [1, 1]], [.prim 3, .comp 0], [.prim 7, .comp 3, .arr [3, 3]], [.prim 3, .comp 2]]⟩) := by
  decide +kernel

/-- `message.structure.x = 5` on the copy: seen in the array of the copy, not in the original. -/
example : (acts ⟨[0, 1, 2, 3], [[.prim 7, .comp 1, .arr [1, 1]], [.prim 3, .comp 0], [.prim 7, .comp 3, .arr [3, 3]], [.prim 3, .comp 2]]⟩ 2 [.setInt [.field 1] 0 5]).read 2 [.item 2 1] 0
      = some 5 ∧
    (acts ⟨[0, 1, 2, 3], [[.prim 7, .comp 1, .arr [1, 1]], [.prim 3, .comp 0], [.prim 7, .comp 3, .arr [3, 3]], [.prim 3, .comp 2]]⟩ 2 [.setInt [.field 1] 0 5]).read 0 [.item 2 1] 0
      = some 3 := by decide +kernel

/-- The case of `C61_counterexample`, with a deep copy: `outer.f = copy.deepcopy(inner); inner.x = 5`; `outer.f.x` still reads 7. -/
example : ((deepcopy aliasHeap 2).map fun r => ((acts (r.2.exec (.setComp 0 [] 0 r.1 [])) 2 [.setInt [] 0 5]).read 0 [.field 0] 0,
    (acts (r.2.exec (.setComp 0 [] 0 r.1 [])) 2 [.setInt [] 0 5]).read 2 [] 0)) = some (some 7, some 5) := by decide +kernel

end DeepCopy
end Dronecan
