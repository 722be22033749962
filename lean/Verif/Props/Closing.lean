import Verif.Model.Closing

/-!
# Closing application objects (C108)
-/

namespace Dronecan
namespace Closing

/-! ## Specification -/

/-- Object number `a` is called for `x` after its `close` has returned. -/
def Late (t : List Ev) (a : Nat) (x : Src) : Prop := ∃ before after, t = before ++ .closed a :: after ∧ Ev.called a x ∈ after

/-- C108 in full: an object that has been closed is not called any more. -/
def C108_statement : Prop := ∀ (steps : List Step) (a : Nat) (x : Src), ¬ Late (run steps).trace a x

/-- The classes of the objects, in the order of their creation. -/
def kinds (steps : List Step) : List Kind := steps.filterMap fun
  | .create k => some k
  | _ => none

/-! ## Proofs -/

theorem late_snoc {t : List Ev} {e : Ev} {a : Nat} {x : Src} (h : Late (t ++ [e]) a x) :
    Late t a x ∨ (e = .called a x ∧ Ev.closed a ∈ t) := by
  obtain ⟨b, c, h, hm⟩ := h
  rcases List.eq_nil_or_concat c with rfl | ⟨c', y, rfl⟩
  · cases hm
  · rw [List.concat_eq_append, ← List.cons_append, ← List.append_assoc] at h
    have h1 := List.append_inj_left' h rfl
    have h2 := List.append_inj_right' h rfl
    simp only [List.cons.injEq, and_true] at h2
    subst h1 h2
    rw [List.concat_eq_append, List.mem_append] at hm
    rcases hm with hm | hm
    · exact .inl ⟨b, c', rfl, hm⟩
    · rw [List.mem_singleton] at hm
      exact .inr ⟨hm.symm, by simp⟩

structure Inv (s : State) : Prop where
  below : ∀ r ∈ s.regs, r.uid < s.nextUid
  unique : ∀ r ∈ s.regs, ∀ r' ∈ s.regs, r.uid = r'.uid → r = r'
  /-- handles belong to one object -/
  owner : ∀ (a b : Nat) (k l : Kind) (hs hs' : List (Src × Nat)) (x y : Src) (u : Nat), s.apps[a]? = some (k, hs) → s.apps[b]? = some (l, hs') → hs.lookup x = some u →
    hs'.lookup y = some u → a = b
  handles : ∀ (a : Nat) (k : Kind) (hs : List (Src × Nat)), s.apps[a]? = some (k, hs) →
    (∀ x, (hs.lookup x).isSome = true ↔ x ∈ registers k) ∧ ∀ x u, hs.lookup x = some u → u < s.nextUid
  owned : ∀ r ∈ s.regs, ∃ k hs, s.apps[r.app]? = some (k, hs) ∧ (hs.lookup r.src = some r.uid ∨ (r.src = .pending ∧ k = .nodeMonitor))
  mine : ∀ r ∈ s.regs, ∀ (a : Nat) (k : Kind) (hs : List (Src × Nat)) (x : Src), s.apps[a]? = some (k, hs) → hs.lookup x = some r.uid → r.app = a ∧ r.src = x
  gone : ∀ a, Ev.closed a ∈ s.trace → ∃ k hs, s.apps[a]? = some (k, hs) ∧ ∀ r ∈ s.regs, r.app = a → r.src ∉ removes k
  late : ∀ a x, Late s.trace a x → ∃ hs, s.apps[a]? = some (.nodeMonitor, hs) ∧ (x = .info ∨ x = .pending)

theorem inv_init : Inv {} where
  below := fun _ h => nomatch h
  unique := fun _ h => nomatch h
  owner := fun _ _ _ _ _ _ _ _ _ h => nomatch h
  handles := fun _ _ _ h => nomatch h
  owned := fun _ h => nomatch h
  mine := fun _ h => nomatch h
  gone := fun _ h => nomatch h
  late := by
    rintro a x ⟨b, c, h, -⟩
    exact absurd h (by simp)

theorem registers_cases (k : Kind) (x : Src) (h : x ∈ registers k) : x ∈ removes k ∨ (k = .nodeMonitor ∧ x = .info) := by
  cases k <;> cases x <;> revert h <;> decide

theorem status_kind (k : Kind) (h : Src.status ∈ registers k) : k = .nodeMonitor := by
  cases k <;> revert h <;> decide

/-- Fewer registrations. -/
theorem Inv.fewer {s : State} (h : Inv s) (p : Reg → Bool) : Inv { s with regs := s.regs.filter p } where
  below := fun r hr => h.below r (List.mem_filter.1 hr).1
  unique := fun r hr r' hr' => h.unique r (List.mem_filter.1 hr).1 r' (List.mem_filter.1 hr').1
  owner := h.owner
  handles := h.handles
  owned := fun r hr => h.owned r (List.mem_filter.1 hr).1
  mine := fun r hr => h.mine r (List.mem_filter.1 hr).1
  gone := fun a ha => by
    obtain ⟨k, hs, hk, hr⟩ := h.gone a ha
    exact ⟨k, hs, hk, fun r hm => hr r (List.mem_filter.1 hm).1⟩
  late := h.late

/-- Another event in the trace. -/
theorem Inv.event {s : State} (h : Inv s) (e : Ev)
    (hg : ∀ a, e = .closed a → ∃ k hs, s.apps[a]? = some (k, hs) ∧ ∀ r ∈ s.regs, r.app = a → r.src ∉ removes k)
    (hl : ∀ a x, e = .called a x → Ev.closed a ∈ s.trace → ∃ hs, s.apps[a]? = some (.nodeMonitor, hs) ∧ (x = .info ∨ x = .pending)) :
    Inv { s with trace := s.trace ++ [e] } where
  below := h.below
  unique := h.unique
  owner := h.owner
  handles := h.handles
  owned := h.owned
  mine := h.mine
  gone := fun a ha => by
    rw [List.mem_append, List.mem_singleton] at ha
    rcases ha with ha | ha
    · exact h.gone a ha
    · exact hg a ha.symm
  late := fun a x hx => by
    rcases late_snoc hx with hx | ⟨he, hc⟩
    · exact h.late a x hx
    · exact hl a x he hc

/-! ### `close` -/

theorem removeAll_spec (hs : List (Src × Nat)) (xs : List Src) (s : State) :
    ∃ p : Reg → Bool, (removeAll hs xs s).1 = { s with regs := s.regs.filter p } ∧
    (∀ r ∈ s.regs, (∀ x, hs.lookup x = some r.uid → x ∉ xs) → p r = true) ∧
    ((removeAll hs xs s).2 = true → ∀ x ∈ xs, ∃ u, hs.lookup x = some u ∧ (∃ r ∈ s.regs, r.uid = u) ∧ ∀ r ∈ s.regs, r.uid = u → p r = false) := by
  induction xs generalizing s with
  | nil =>
    refine ⟨fun _ => true, ?_, fun _ _ _ => rfl, fun _ x hx => nomatch hx⟩
    simp only [removeAll]
    rw [List.filter_eq_self.2 fun _ _ => rfl]
  | cons x xs ih =>
    simp only [removeAll]
    cases hl : hs.lookup x with
    | none =>
      refine ⟨fun _ => true, ?_, fun _ _ _ => rfl, fun h => nomatch h⟩
      rw [List.filter_eq_self.2 fun _ _ => rfl]
    | some u =>
      simp only [removeHandle]
      by_cases hu : s.regs.any (fun r => r.uid == u) = true
      · simp only [hu, if_true]
        obtain ⟨p, hp, hk, hf⟩ := ih { s with regs := s.regs.filter (fun r => r.uid != u) }
        refine ⟨fun r => p r && r.uid != u, ?_, fun r hr hx => ?_, fun ht y hy => ?_⟩
        · rw [hp]
          simp only [List.filter_filter]
        · simp only [Bool.and_eq_true, bne_iff_ne]
          have hne : r.uid ≠ u := fun he => hx x (by rw [hl, he]) List.mem_cons_self
          exact ⟨hk r (List.mem_filter.2 ⟨hr, by simpa using hne⟩) fun y hy hm => hx y hy (List.mem_cons_of_mem _ hm), hne⟩
        · rcases List.mem_cons.1 hy with rfl | hy
          · obtain ⟨r, hr, hru⟩ := List.any_eq_true.1 hu
            exact ⟨u, hl, ⟨r, hr, by simpa using hru⟩, fun r _ hr => by simp [hr]⟩
          · obtain ⟨v, hv, ⟨r, hr, hrv⟩, hall⟩ := hf ht y hy
            refine ⟨v, hv, ⟨r, (List.mem_filter.1 hr).1, hrv⟩, fun r' hr' he => ?_⟩
            by_cases hru : r'.uid = u
            · simp [hru]
            · show (p r' && r'.uid != u) = false
              rw [hall r' (List.mem_filter.2 ⟨hr', by simpa using hru⟩) he]; rfl
      · rw [if_neg hu]
        refine ⟨fun _ => true, ?_, fun _ _ _ => rfl, fun h => nomatch h⟩
        rw [List.filter_eq_self.2 fun _ _ => rfl]

theorem close_inv {s : State} (h : Inv s) (a : Nat) : Inv (close a s) := by
  simp only [close]
  split
  · exact h
  next k hs ha =>
    obtain ⟨p, hp, -, hf⟩ := removeAll_spec hs (removes k) s
    split
    next s' he =>
      rw [he] at hp hf
      simp only at hp hf
      subst hp
      refine (h.fewer p).event _ (fun b hb => ?_) (fun b x hb => nomatch hb)
      simp only [Ev.closed.injEq] at hb
      subst hb
      refine ⟨k, hs, ha, fun r hr hra hm => ?_⟩
      obtain ⟨hr, hpr⟩ := List.mem_filter.1 hr
      obtain ⟨u, hu, -, hall⟩ := hf trivial _ hm
      obtain ⟨k', hs', hk', ho⟩ := h.owned r hr
      rw [hra, ha] at hk'
      simp only [Option.some.injEq, Prod.mk.injEq] at hk'
      obtain ⟨rfl, rfl⟩ := hk'
      rcases ho with ho | ⟨ho, hn⟩
      · rw [hu, Option.some.injEq] at ho
        rw [hall r hr ho.symm] at hpr
        cases hpr
      · subst hn
        rw [ho] at hm
        revert hm
        decide
    next s' he =>
      rw [he] at hp
      simp only at hp
      subst hp
      exact (h.fewer p).event _ (fun b hb => nomatch hb) (fun b x hb => nomatch hb)

/-! ### Calls -/

theorem called_late {s : State} (h : Inv s) (r : Reg) (hr : r ∈ s.regs) (hc : Ev.closed r.app ∈ s.trace) :
    ∃ hs, s.apps[r.app]? = some (.nodeMonitor, hs) ∧ (r.src = .info ∨ r.src = .pending) := by
  obtain ⟨k, hs, hk, hg⟩ := h.gone _ hc
  have hg := hg r hr rfl
  obtain ⟨k', hs', hk', ho⟩ := h.owned r hr
  rw [hk] at hk'
  simp only [Option.some.injEq, Prod.mk.injEq] at hk'
  obtain ⟨rfl, rfl⟩ := hk'
  rcases ho with ho | ⟨ho, hn⟩
  · rcases registers_cases k r.src (((h.handles _ _ _ hk).1 _).1 (by rw [ho]; rfl)) with hm | ⟨rfl, hx⟩
    · exact absurd hm hg
    · exact ⟨hs, hk, .inl hx⟩
  · subst hn
    exact ⟨hs, hk, .inr ho⟩

theorem fire_inv {s : State} (h : Inv s) (uid : Nat) (asks : Bool) : Inv (fire uid asks s) := by
  simp only [fire]
  split
  · exact h
  next r hr =>
    have hm := List.mem_of_find?_eq_some hr
    have h1 : Inv { s with trace := s.trace ++ [.called r.app r.src] } := by
      refine h.event _ (fun b hb => nomatch hb) fun a x he hc => ?_
      simp only [Ev.called.injEq] at he
      obtain ⟨rfl, rfl⟩ := he
      exact called_late h r hm hc
    split
    · exact h1.fewer _
    next hsrc =>
      split
      · obtain ⟨k, hs, hk, ho⟩ := h.owned r hm
        have hkm : k = .nodeMonitor := by
          rcases ho with ho | ⟨-, hn⟩
          · exact status_kind k (((h.handles _ _ _ hk).1 _).1 (by rw [hsrc] at ho; rw [ho]; rfl))
          · exact hn
        subst hkm
        refine ⟨fun r' hr' => ?_, fun r' hr' r'' hr'' he => ?_, h1.owner, fun a k hs ha => ?_, fun r' hr' => ?_, fun r' hr' a k hs x ha hl => ?_,
          fun a ha => ?_, h1.late⟩
        · rcases List.mem_append.1 hr' with hr' | hr'
          · have := h.below r' hr'
            exact Nat.lt_succ_of_lt this
          · rw [List.mem_singleton.1 hr']
            exact Nat.lt_succ_self _
        · rcases List.mem_append.1 hr' with hr' | hr' <;> rcases List.mem_append.1 hr'' with hr'' | hr''
          · exact h.unique r' hr' r'' hr'' he
          · rw [List.mem_singleton.1 hr''] at he
            exact absurd he (Nat.ne_of_lt (h.below r' hr'))
          · rw [List.mem_singleton.1 hr'] at he
            exact absurd he.symm (Nat.ne_of_lt (h.below r'' hr''))
          · rw [List.mem_singleton.1 hr', List.mem_singleton.1 hr'']
        · exact ⟨(h.handles a k hs ha).1, fun x u hu => Nat.lt_succ_of_lt ((h.handles a k hs ha).2 x u hu)⟩
        · rcases List.mem_append.1 hr' with hr' | hr'
          · exact h.owned r' hr'
          · rw [List.mem_singleton.1 hr']
            exact ⟨_, hs, hk, .inr ⟨rfl, rfl⟩⟩
        · rcases List.mem_append.1 hr' with hr' | hr'
          · exact h.mine r' hr' a k hs x ha hl
          · rw [List.mem_singleton.1 hr'] at hl
            exact absurd ((h.handles a k hs ha).2 x _ hl) (Nat.lt_irrefl _)
        · have hne : a ≠ r.app := fun he => by
            rw [List.mem_append, List.mem_singleton] at ha
            rcases ha with ha | ha
            · subst he
              obtain ⟨-, -, hx⟩ := called_late h r hm ha
              rw [hsrc] at hx
              rcases hx with hx | hx <;> cases hx
            · cases ha
          obtain ⟨k, hs', hk', hg⟩ := h1.gone a ha
          refine ⟨k, hs', hk', fun r' hr' hra => ?_⟩
          rcases List.mem_append.1 hr' with hr' | hr'
          · exact hg r' hr' hra
          · rw [List.mem_singleton.1 hr'] at hra
            exact absurd hra.symm hne
      · exact h1
    · exact h1

/-! ### Constructors -/

theorem register_spec (app : Nat) (xs : List Src) (s : State) (hn : xs.Nodup) :
    ∃ (new : List Reg) (n : Nat), (register app xs s).1 = { s with regs := s.regs ++ new, nextUid := s.nextUid + n } ∧
    (∀ x, ((register app xs s).2.lookup x).isSome = true ↔ x ∈ xs) ∧
    (∀ x u, (register app xs s).2.lookup x = some u → s.nextUid ≤ u ∧ u < s.nextUid + n) ∧
    (∀ r ∈ new, r.app = app ∧ (register app xs s).2.lookup r.src = some r.uid) ∧
    (∀ x u, (register app xs s).2.lookup x = some u → Reg.mk u app x ∈ new) ∧
    (∀ x y u, (register app xs s).2.lookup x = some u → (register app xs s).2.lookup y = some u → x = y) := by
  induction xs generalizing s with
  | nil =>
    refine ⟨[], 0, ?_, ?_, ?_, ?_, ?_, ?_⟩ <;> simp [register]
  | cons x xs ih =>
    obtain ⟨hx, hn⟩ := List.nodup_cons.1 hn
    obtain ⟨new, n, h1, h2, h3, h4, h5, h6⟩ := ih { s with
      regs := s.regs ++ [⟨s.nextUid, app, x⟩]
      nextUid := s.nextUid + 1 } hn
    simp only [register]
    generalize hq : register app xs { s with
      regs := s.regs ++ [⟨s.nextUid, app, x⟩]
      nextUid := s.nextUid + 1 } = q at h1 h2 h3 h4 h5 h6
    obtain ⟨s', hs⟩ := q
    simp only at h1 h2 h3 h4 h5 h6
    have hlk : ∀ y, ((x, s.nextUid) :: hs).lookup y = if y = x then some s.nextUid else hs.lookup y := by
      intro y
      by_cases hy : y = x
      · subst hy; simp
      · rw [if_neg hy, List.lookup_cons, beq_eq_false_iff_ne.2 hy]
    refine ⟨⟨s.nextUid, app, x⟩ :: new, n + 1, ?_, fun y => ?_, fun y u hu => ?_, fun r hr => ?_, fun y u hu => ?_, fun y z u hy hz => ?_⟩
    · rw [h1]
      simp only [List.append_assoc, List.singleton_append, Nat.add_assoc, Nat.add_comm 1 n]
    · rw [hlk]
      by_cases hy : y = x
      · simp [hy]
      · rw [if_neg hy, h2]; simp [hy]
    · rw [hlk] at hu
      by_cases hy : y = x
      · rw [if_pos hy, Option.some.injEq] at hu
        omega
      · rw [if_neg hy] at hu
        have := h3 y u hu
        omega
    · rcases List.mem_cons.1 hr with rfl | hr
      · exact ⟨rfl, by rw [hlk, if_pos rfl]⟩
      · obtain ⟨ha, hl⟩ := h4 r hr
        refine ⟨ha, ?_⟩
        rw [hlk, if_neg, hl]
        intro he
        apply hx
        rw [← he]
        exact (h2 r.src).1 (by rw [hl]; rfl)
    · rw [hlk] at hu
      by_cases hy : y = x
      · rw [if_pos hy, Option.some.injEq] at hu
        rw [← hu, hy]
        exact List.mem_cons_self
      · rw [if_neg hy] at hu
        exact List.mem_cons_of_mem _ (h5 y u hu)
    · rw [hlk] at hy hz
      by_cases h7 : y = x <;> by_cases h8 : z = x
      · rw [h7, h8]
      · rw [if_pos h7, Option.some.injEq] at hy
        rw [if_neg h8] at hz
        have := (h3 z u hz).1
        omega
      · rw [if_pos h8, Option.some.injEq] at hz
        rw [if_neg h7] at hy
        have := (h3 y u hy).1
        omega
      · rw [if_neg h7] at hy
        rw [if_neg h8] at hz
        exact h6 y z u hy hz

theorem registers_nodup (k : Kind) : (registers k).Nodup := by cases k <;> decide

theorem app_lt {s : State} (h : Inv s) {r : Reg} (hr : r ∈ s.regs) : r.app < s.apps.length := by
  obtain ⟨k, hs, hk, -⟩ := h.owned r hr
  exact (List.getElem?_eq_some_iff.1 hk).1

theorem create_inv {s : State} (h : Inv s) (k : Kind) : Inv (create k s) := by
  obtain ⟨new, n, h1, h2, h3, h4, h5, h6⟩ := register_spec s.apps.length (registers k) s (registers_nodup k)
  simp only [create]
  generalize register s.apps.length (registers k) s = q at h1 h2 h3 h4 h5 h6
  obtain ⟨s', hs⟩ := q
  simp only at h1 h2 h3 h4 h5 h6
  subst h1
  have happ : ∀ {a : Nat} {l : Kind} {hs' : List (Src × Nat)}, (s.apps ++ [(k, hs)])[a]? = some (l, hs') →
      s.apps[a]? = some (l, hs') ∨ (a = s.apps.length ∧ l = k ∧ hs' = hs) := by
    intro a l hs' ha
    by_cases hlt : a < s.apps.length
    · rw [List.getElem?_append_left hlt] at ha
      exact .inl ha
    · rw [List.getElem?_append_right (by omega)] at ha
      by_cases he : a - s.apps.length = 0
      · rw [he] at ha
        simp only [List.getElem?_cons_zero, Option.some.injEq, Prod.mk.injEq] at ha
        exact .inr ⟨by omega, ha.1.symm, ha.2.symm⟩
      · rw [List.getElem?_eq_none (by simp; omega)] at ha
        cases ha
  have hold : ∀ {a : Nat} {l : Kind} {hs' : List (Src × Nat)}, s.apps[a]? = some (l, hs') → (s.apps ++ [(k, hs)])[a]? = some (l, hs') := by
    intro a l hs' ha
    rw [List.getElem?_append_left (List.getElem?_eq_some_iff.1 ha).1]
    exact ha
  have hnew : (s.apps ++ [(k, hs)])[s.apps.length]? = some (k, hs) := by simp
  have hin : ∀ r ∈ new, s.nextUid ≤ r.uid ∧ r.uid < s.nextUid + n := fun r hr => h3 _ _ (h4 r hr).2
  refine ⟨fun r hr => ?_, fun r hr r' hr' he => ?_, fun a b l l' hs1 hs2 x y u ha hb hx hy => ?_, fun a l hs' ha => ?_, fun r hr => ?_,
    fun r hr a l hs' x ha hl => ?_, fun a ha => ?_, fun a x hx => ?_⟩
  · rcases List.mem_append.1 hr with hr | hr
    · have := h.below r hr
      show r.uid < s.nextUid + n
      omega
    · exact (hin r hr).2
  · rcases List.mem_append.1 hr with hr | hr <;> rcases List.mem_append.1 hr' with hr' | hr'
    · exact h.unique r hr r' hr' he
    · have := h.below r hr
      have := hin r' hr'
      omega
    · have := h.below r' hr'
      have := hin r hr
      omega
    · obtain ⟨ha, hl⟩ := h4 r hr
      obtain ⟨ha', hl'⟩ := h4 r' hr'
      have := h6 r.src r'.src r.uid hl (by rw [hl', he])
      cases r
      cases r'
      simp only at ha ha' he this
      simp [ha, ha', he, this]
  · rcases happ ha with ha' | ⟨e1, e2, e3⟩ <;> rcases happ hb with hb' | ⟨e4, e5, e6⟩
    · exact h.owner a b l l' hs1 hs2 x y u ha' hb' hx hy
    · have := (h.handles _ _ _ ha').2 x u hx
      rw [e6] at hy
      have := (h3 y u hy).1
      omega
    · have := (h.handles _ _ _ hb').2 y u hy
      rw [e3] at hx
      have := (h3 x u hx).1
      omega
    · rw [e1, e4]
  · rcases happ ha with ha' | ⟨e1, e2, e3⟩
    · refine ⟨(h.handles a l hs' ha').1, fun x u hu => ?_⟩
      have := (h.handles a l hs' ha').2 x u hu
      show u < s.nextUid + n
      omega
    · rw [e2, e3]
      exact ⟨h2, fun x u hu => (h3 x u hu).2⟩
  · rcases List.mem_append.1 hr with hr | hr
    · obtain ⟨l, hs', hl, ho⟩ := h.owned r hr
      exact ⟨l, hs', hold hl, ho⟩
    · obtain ⟨ha, hl⟩ := h4 r hr
      exact ⟨k, hs, by rw [ha]; exact hnew, .inl hl⟩
  · rcases List.mem_append.1 hr with hr' | hr' <;> rcases happ ha with ha' | ⟨e1, e2, e3⟩
    · exact h.mine r hr' a l hs' x ha' hl
    · have := h.below r hr'
      rw [e3] at hl
      have := (h3 x _ hl).1
      omega
    · have := (h.handles a l hs' ha').2 x _ hl
      have := (hin r hr').1
      omega
    · obtain ⟨ha2, hl'⟩ := h4 r hr'
      rw [e3] at hl
      exact ⟨by rw [ha2, e1], h6 _ _ _ hl' hl⟩
  · obtain ⟨l, hs', hl, hg⟩ := h.gone a ha
    refine ⟨l, hs', hold hl, fun r hr hra => ?_⟩
    rcases List.mem_append.1 hr with hr | hr
    · exact hg r hr hra
    · have h7 := (h4 r hr).1
      have h8 := (List.getElem?_eq_some_iff.1 hl).1
      omega
  · obtain ⟨hs', ha, hx⟩ := h.late a x hx
    exact ⟨hs', hold ha, hx⟩

theorem step_inv {s : State} (h : Inv s) (st : Step) : Inv (step s st) := by
  cases st with
  | create k => exact create_inv h k
  | close a => exact close_inv h a
  | fire uid asks => exact fire_inv h uid asks
  | removeHandlers x =>
    simp only [step]
    split
    · exact h.fewer _
    · exact h

theorem run_inv (steps : List Step) : Inv (run steps) := by
  have : ∀ s, Inv s → Inv (steps.foldl step s) := by
    induction steps with
    | nil => exact fun s h => h
    | cons a l ih => exact fun s h => ih _ (step_inv h a)
  exact this {} inv_init

theorem register_apps (app : Nat) (xs : List Src) (s : State) : (register app xs s).1.apps = s.apps := by
  induction xs generalizing s with
  | nil => rfl
  | cons x xs ih => simp only [register, ih]

theorem step_kinds (s : State) (st : Step) : (step s st).apps.map Prod.fst = s.apps.map Prod.fst ++ kinds [st] := by
  cases st with
  | create k => simp [step, create, register_apps, kinds]
  | close a =>
    simp only [step, close, kinds, List.filterMap_cons, List.filterMap_nil, List.append_nil]
    split
    · rfl
    next k hs ha =>
      obtain ⟨p, hp, -⟩ := removeAll_spec hs (removes k) s
      split <;> (next s' he => rw [he] at hp; simp only at hp; subst hp; rfl)
  | fire uid asks =>
    simp only [step, fire, kinds, List.filterMap_cons, List.filterMap_nil, List.append_nil]
    split
    · rfl
    · split
      · rfl
      · split <;> rfl
      · rfl
  | removeHandlers x =>
    simp only [step, kinds, List.filterMap_cons, List.filterMap_nil, List.append_nil]
    split <;> rfl

theorem run_kinds (steps : List Step) : (run steps).apps.map Prod.fst = kinds steps := by
  have : ∀ s : State, (steps.foldl step s).apps.map Prod.fst = s.apps.map Prod.fst ++ kinds steps := by
    induction steps with
    | nil => intro s; simp [kinds]
    | cons a l ih =>
      intro s
      rw [List.foldl_cons, ih, step_kinds, List.append_assoc]
      congr 1
      simp only [kinds]
      rw [← List.filterMap_append]
      rfl
  have h := this {}
  simpa [run] using h

/-! ## C108 -/

/-- C108 for all classes except `NodeMonitor`, and for what a node monitor is told by status messages and its timer. (Missing: a node monitor that
has been closed still gets GetNodeInfo transfers, and the responses to its requests, `C108_counterexample`.) -/
theorem C108_partial (steps : List Step) (a : Nat) (x : Src) (h : Late (run steps).trace a x) :
    (kinds steps)[a]? = some .nodeMonitor ∧ (x = .info ∨ x = .pending) := by
  obtain ⟨hs, ha, hx⟩ := (run_inv steps).late a x h
  rw [← run_kinds, List.getElem?_map, ha]
  exact ⟨rfl, hx⟩

/-- `close` concerns no other object: all registrations of others stay, whether it returns or raises. -/
theorem C108_others (steps : List Step) (a : Nat) (r : Reg) (hr : r ∈ (run steps).regs) (ha : r.app ≠ a) : r ∈ (run (steps ++ [.close a])).regs := by
  have h := run_inv steps
  have hq : run (steps ++ [.close a]) = close a (run steps) := by rw [run, List.foldl_append]; rfl
  rw [hq]
  simp only [close]
  split
  · exact hr
  next k hs hk =>
    obtain ⟨p, hp, hkeep, -⟩ := removeAll_spec hs (removes k) (run steps)
    have : p r = true := hkeep r hr fun x hx _ => ha (h.mine r hr a k hs x hk hx).1
    split <;> (next s' he => rw [he] at hp; simp only at hp; subst hp; exact List.mem_filter.2 ⟨hr, this⟩)

/-- The second `close` raises `ValueError`, and changes nothing. -/
theorem C108_twice (steps : List Step) (a : Nat) (h : Ev.closed a ∈ (run steps).trace) :
    run (steps ++ [.close a]) = { run steps with trace := (run steps).trace ++ [.raised a] } := by
  have hi := run_inv steps
  have hq : run (steps ++ [.close a]) = close a (run steps) := by rw [run, List.foldl_append]; rfl
  obtain ⟨k, hs, hk, hg⟩ := hi.gone a h
  rw [hq]
  have hrem : ∃ x xs, removes k = x :: xs := by cases k <;> exact ⟨_, _, rfl⟩
  obtain ⟨x, xs, hx⟩ := hrem
  have hfail : removeAll hs (removes k) (run steps) = (run steps, false) := by
    rw [hx]
    simp only [removeAll]
    cases hl : hs.lookup x with
    | none => rfl
    | some u =>
      simp only [removeHandle]
      rw [if_neg]
      intro hany
      obtain ⟨r, hr, hru⟩ := List.any_eq_true.1 hany
      have hru : r.uid = u := by simpa using hru
      obtain ⟨h1, h2⟩ := hi.mine r hr a k hs x hk (by rw [hl, hru])
      exact hg r hr h1 (by rw [h2, hx]; exact List.mem_cons_self)
  simp only [close, hk, hfail]

/-- All handles of object `a` are good. -/
def Present (a : Nat) (s : State) : Prop :=
  ∀ (k : Kind) (hs : List (Src × Nat)), s.apps[a]? = some (k, hs) → ∀ x u, hs.lookup x = some u → ∃ r ∈ s.regs, r.uid = u

theorem step_present {s : State} (h : Inv s) (a : Nat) (hp : Present a s) (st : Step) (h1 : ∀ x, st ≠ .removeHandlers x) (h2 : st ≠ .close a) :
    Present a (step s st) := by
  cases st with
  | removeHandlers x => exact absurd rfl (h1 x)
  | create k =>
    obtain ⟨new, n, e1, -, -, -, h5, -⟩ := register_spec s.apps.length (registers k) s (registers_nodup k)
    simp only [step, create]
    generalize register s.apps.length (registers k) s = q at e1 h5
    obtain ⟨s', hs⟩ := q
    simp only at e1 h5
    subst e1
    intro l hs' ha x u hu
    by_cases hlt : a < s.apps.length
    · simp only [List.getElem?_append_left hlt] at ha
      obtain ⟨r, hr, he⟩ := hp l hs' ha x u hu
      exact ⟨r, List.mem_append_left _ hr, he⟩
    · have hlen := (List.getElem?_eq_some_iff.1 ha).1
      simp only [List.length_append, List.length_cons, List.length_nil] at hlen
      have : a = s.apps.length := by omega
      subst this
      simp only [List.getElem?_concat_length, Option.some.injEq, Prod.mk.injEq] at ha
      rw [← ha.2] at hu
      exact ⟨_, List.mem_append_right _ (h5 x u hu), rfl⟩
  | close b =>
    have hb : b ≠ a := fun he => h2 (by rw [he])
    intro l hs' ha x u hu
    have hk : (step s (.close b)).apps = s.apps := by
      simp only [step, close]
      split
      · rfl
      next k hs hk =>
        obtain ⟨p, hp, -⟩ := removeAll_spec hs (removes k) s
        split <;> (next s' he => rw [he] at hp; simp only at hp; subst hp; rfl)
    rw [hk] at ha
    obtain ⟨r, hr, he⟩ := hp l hs' ha x u hu
    refine ⟨r, ?_, he⟩
    have hra := (h.mine r hr a l hs' x ha (by rw [he]; exact hu)).1
    simp only [step, close]
    split
    · exact hr
    next k hs hk =>
      obtain ⟨p, hp, hkeep, -⟩ := removeAll_spec hs (removes k) s
      have : p r = true := hkeep r hr fun y hy _ => hb (by rw [← (h.mine r hr b k hs y hk hy).1, hra])
      split <;> (next s' he => rw [he] at hp; simp only at hp; subst hp; exact List.mem_filter.2 ⟨hr, this⟩)
  | fire uid asks =>
    have hk : (step s (.fire uid asks)).apps = s.apps := by
      simp only [step, fire]
      split
      · rfl
      · split
        · rfl
        · split <;> rfl
        · rfl
    intro l hs' ha x u hu
    rw [hk] at ha
    obtain ⟨r, hr, he⟩ := hp l hs' ha x u hu
    refine ⟨r, ?_, he⟩
    simp only [step, fire]
    split
    · exact hr
    next r' hr' =>
      split
      next hsrc =>
        refine List.mem_filter.2 ⟨hr, ?_⟩
        simp only [bne_iff_ne]
        intro heq
        have hu' : r'.uid = uid := by simpa using List.find?_some hr'
        have := h.unique r hr r' (List.mem_of_find?_eq_some hr') (by rw [heq, hu'])
        have hx := (h.mine r hr a l hs' x ha (by rw [he]; exact hu)).2
        rw [this, hsrc] at hx
        have hreg := ((h.handles a l hs' ha).1 x).1 (by rw [hu]; rfl)
        rw [← hx] at hreg
        revert hreg
        cases l <;> decide
      · split
        · exact List.mem_append_left _ hr
        · exact hr
      · exact hr

theorem removeAll_ok (hs : List (Src × Nat)) (xs : List Src) (hn : xs.Nodup) (s : State)
    (h1 : ∀ x ∈ xs, ∃ r ∈ s.regs, hs.lookup x = some r.uid) (h2 : ∀ r ∈ s.regs, ∀ x, hs.lookup x = some r.uid → r.src = x) :
    (removeAll hs xs s).2 = true := by
  induction xs generalizing s with
  | nil => rfl
  | cons x xs ih =>
    obtain ⟨hx, hn⟩ := List.nodup_cons.1 hn
    obtain ⟨r, hr, hl⟩ := h1 x List.mem_cons_self
    simp only [removeAll, hl, removeHandle]
    rw [if_pos (List.any_eq_true.2 ⟨r, hr, by simp⟩)]
    refine ih hn _ (fun y hy => ?_) (fun r' hr' => h2 r' (List.mem_filter.1 hr').1)
    obtain ⟨r', hr', hl'⟩ := h1 y (List.mem_cons_of_mem _ hy)
    refine ⟨r', List.mem_filter.2 ⟨hr', ?_⟩, hl'⟩
    simp only [bne_iff_ne]
    intro he
    apply hx
    rw [← h2 r' hr' x (by rw [hl, he]), h2 r' hr' y hl']
    exact hy

theorem removes_sub (k : Kind) (x : Src) (h : x ∈ removes k) : x ∈ registers k := by
  cases k <;> cases x <;> revert h <;> decide

theorem removes_nodup (k : Kind) : (removes k).Nodup := by cases k <;> decide

/-- The first `close` returns, if `Node.remove_handlers` has not been used. -/
theorem C108_first (steps : List Step) (a : Nat) (k : Kind) (hk : (kinds steps)[a]? = some k) (hr : ∀ x, Step.removeHandlers x ∉ steps)
    (hc : Step.close a ∉ steps) : (run (steps ++ [.close a])).trace = (run steps).trace ++ [.closed a] := by
  have hi := run_inv steps
  have hp : Present a (run steps) := by
    have : ∀ s, Inv s → Present a s → Present a (steps.foldl step s) := by
      clear hk hi
      induction steps with
      | nil => exact fun s _ h => h
      | cons st l ih =>
        exact fun s h hp => ih (fun x hx => hr x (List.mem_cons_of_mem _ hx)) (fun hx => hc (List.mem_cons_of_mem _ hx)) _ (step_inv h st)
          (step_present h a hp st (fun x he => hr x (by rw [he]; exact List.mem_cons_self)) (fun he => hc (by rw [he]; exact List.mem_cons_self)))
    exact this {} inv_init fun k hs h => nomatch h
  have hq : run (steps ++ [.close a]) = close a (run steps) := by rw [run, List.foldl_append]; rfl
  rw [← run_kinds, List.getElem?_map, Option.map_eq_some_iff] at hk
  obtain ⟨⟨k', hs⟩, ha, hkk⟩ := hk
  simp only at hkk
  subst hkk
  rw [hq]
  have hok := removeAll_ok hs (removes k') (removes_nodup k') (run steps) (fun x hx => by
    obtain ⟨u, hu⟩ := Option.isSome_iff_exists.1 (((hi.handles a k' hs ha).1 x).2 (removes_sub k' x hx))
    obtain ⟨r, hr, he⟩ := hp k' hs ha x u hu
    exact ⟨r, hr, by rw [he]; exact hu⟩) (fun r hr x hx => (hi.mine r hr a k' hs x ha hx).2)
  obtain ⟨p, hp, -⟩ := removeAll_spec hs (removes k') (run steps)
  simp only [close, ha]
  split
  next s' he =>
    rw [he] at hp
    simp only at hp
    subst hp
    rfl
  next s' he =>
    rw [he] at hok
    cases hok

/-- `Node.remove_handlers` removes the handlers of that type, of all objects; timers, update handlers and requests stay. -/
theorem C108_types (steps : List Step) (x : Src) (r : Reg) :
    r ∈ (run (steps ++ [.removeHandlers x])).regs ↔ r ∈ (run steps).regs ∧ (r.src = x → x = .timer ∨ x = .update ∨ x = .pending) := by
  have : run (steps ++ [.removeHandlers x]) = step (run steps) (.removeHandlers x) := by simp [run]
  rw [this]
  simp only [step]
  cases x <;> simp [Src.isHandler]

/-- A node monitor that has been closed is called when a response to GetNodeInfo passes. -/
theorem C108_counterexample : ¬ C108_statement := by
  intro h
  exact h [.create .nodeMonitor, .close 0, .fire 1 false] 0 .info ⟨[], [.called 0 .info], by decide +kernel, by decide +kernel⟩

/-- Two objects; the file server cannot be closed properly after `remove_handlers`: the handler for Read stays. -/
example : (run [.create .nodeMonitor, .create .fileServer, .fire 0 true, .close 0, .fire 5 false, .fire 5 false, .fire 3 false, .removeHandlers .getInfo, .close 1,
    .fire 3 false, .fire 4 false]).trace =
    [.called 0 .status, .closed 0, .called 0 .pending, .called 1 .getInfo, .raised 1, .called 1 .read] := by decide +kernel

end Closing
end Dronecan
