import Verif.Model.Threads
import Verif.Props.EndToEnd

/-!
# Threads that broadcast through one node (C149)
-/

namespace Dronecan
namespace Threads
open Can Node EndToEnd

/-! ## Specification -/

/-- The header of the message. -/
def header (src : Nat) (m : Msg) : Header := { prio := effPrio m.prio, source := src, dtid := m.dt.dtid }

/-- The message can be broadcast by node `src`: type ID, priority and node ID are within their ranges, the payload is a value of the type. -/
structure Ok (src : Nat) (m : Msg) : Prop where
  dtid : m.dt.dtid < 65536
  prio : effPrio m.prio < 32
  src1 : 1 ≤ src
  src2 : src < 128
  wf : WfTy m.dt.msg = true
  ty : hasTy m.dt.msg m.val = true

/-- The message as it arrives. -/
def arrival (src : Nat) (d : Done) (ts : Option Int) : InTransfer :=
  arrived (header src d.msg) d.tid ts (canon d.msg.dt.msg d.msg.val) d.msg.canfd

/-- Somewhere among the frames on the bus the transfer is completed and decoded. -/
def Arrives (db : Registry) (src : Nat) (bus : List Frame) (d : Done) : Prop :=
  ∃ pre f post p, bus = pre ++ f :: post ∧ Completed (ofKey f.key (pre ++ [f])) p ∧ fromFrames db p = .ok (arrival src d none)

/-- Each type is broadcast by one thread only. -/
def Separate (prog : Nat → List Msg) : Prop :=
  ∀ i j, ∀ m ∈ prog i, ∀ m' ∈ prog j, m.dt.dtid = m'.dt.dtid → i = j

/-- The calls of a thread that have returned. -/
def by' (i : Nat) (l : List Done) : List Done := l.filter (·.thread = i)

/-- The frames of a thread. -/
def mine (i : Nat) (bus : List (Nat × Frame)) : List Frame := (bus.filter (·.1 = i)).map (·.2)

/-- The number of calls with this type ID. -/
def countOf (d : Nat) (l : List Done) : Nat := l.countP (·.msg.dt.dtid = d)

/-! ## Frames of one broadcast -/

theorem valid {src : Nat} {m : Msg} (h : Ok src m) : ValidHeader (header src m) := .message _ _ _ h.prio h.dtid h.src1 h.src2

theorem framesOf_spec {src : Nat} {m : Msg} (h : Ok src m) (tid : Nat) :
    ∃ t t' frames, framesOf src m tid = .ok frames ∧ mkTransfer m.dt { prio := effPrio m.prio, source := src } tid m.val m.canfd = .ok t ∧
      toFrames t = .ok (t', frames) ∧ t.header = header src m ∧
      (∀ db : Registry, db m.dt.dtid false = some m.dt →
        fromFrames db frames = .ok (arrived (header src m) tid none (canon m.dt.msg m.val) m.canfd)) := by
  have key := fun (db : Registry) (hdb : db m.dt.dtid false = some m.dt) =>
    C14_end_to_end db m.dt (header src m) tid m.val m.canfd (valid h) rfl hdb h.wf h.ty
  have hm : mkTransfer m.dt { prio := effPrio m.prio, source := src } tid m.val m.canfd = mkTransfer m.dt (header src m) tid m.val m.canfd := by
    simp [mkTransfer, header]
  obtain ⟨t, t', frames, h1, h2, -⟩ := key (fun _ _ => some m.dt) rfl
  refine ⟨t, t', frames, ?_, hm.trans h1, h2, ?_, ?_⟩
  · simp only [framesOf, hm, h1, h2]
  · simp only [mkTransfer, bind, Except.bind] at h1
    split at h1
    · cases h1
    · injection h1 with h1
      subst h1
      rfl
  · intro db hdb
    obtain ⟨u, u', fr, h1', h2', h3⟩ := key db hdb
    rw [h1] at h1'
    injection h1' with h1'
    subst h1'
    rw [h2] at h2'
    injection h2' with h2'
    injection h2' with _ h2'
    subst h2'
    exact h3

/-- The identifier of the frames. -/
theorem framesOf_id {src : Nat} {m : Msg} (h : Ok src m) {tid : Nat} {frames : List Frame} (hf : framesOf src m tid = .ok frames) :
    frames ≠ [] ∧ (∀ f ∈ frames, f.id = idLayout (header src m)) ∧ ∀ f ∈ frames, ∀ g ∈ frames, f.key = g.key := by
  obtain ⟨t, t', fr, h1, h2, h3, h4, -⟩ := framesOf_spec h tid
  rw [hf] at h1
  injection h1 with h1
  subst h1
  obtain ⟨c1, c2, c3, -⟩ := C13_frame_sequence t t' frames h3
  have hid : ∀ f ∈ frames, f.id = idLayout (header src m) := by
    intro f hf
    have := (c3 f hf).1
    rw [h4, (C12_header_roundtrip _ (valid h)).1] at this
    injection this with this
    exact this.symm
  refine ⟨c1, hid, ?_⟩
  have hl : ∀ f ∈ frames, f.bytes ≠ [] ∧ f.tail.toNat % 32 = t.tid % 32 := by
    intro f hf
    obtain ⟨i, hi, rfl⟩ := List.getElem_of_mem hf
    obtain ⟨w1, w2, -⟩ := c2 i hi
    exact ⟨w1, w2⟩
  intro f hf g hg
  rw [(C21_key_and_flags f g).1]
  exact ⟨(hid f hf).trans (hid g hg).symm, by simp [(hl f hf).1, (hl g hg).1], (hl f hf).2.trans (hl g hg).2.symm⟩

/-! ## The invariant -/

/-- What a thread has sent of a message that it is still sending. -/
def part : Phase → List Frame
  | .sending _ _ sent _ => sent
  | _ => []

/-- The message that a thread is about to send. -/
def current : Phase → List Msg
  | .idle => []
  | .got m _ => [m]
  | .sending m _ _ _ => [m]

/-- Whether a thread is sending a message of this type. -/
def busy (d : Nat) : Phase → Nat
  | .sending m _ _ _ => if m.dt.dtid = d then 1 else 0
  | _ => 0

/-- What is true of a thread within `broadcast`. -/
def PhaseOk (src : Nat) (ids : Dict Nat Nat) (returned : List Done) : Phase → Prop
  | .idle => True
  | .got m tid => tid = (ids.get? m.dt.dtid).getD 0
  | .sending m tid sent rest => framesOf src m tid = .ok (sent ++ rest) ∧ tid = countOf m.dt.dtid returned % 32

structure Inv (src : Nat) (prog : Nat → List Msg) (s : State) : Prop where
  tags : ∀ x ∈ s.bus, ∃ m ∈ prog x.1, x.2.id = idLayout (header src m)
  mine : ∀ i, mine i s.bus = (by' i s.returned).flatMap (·.frames) ++ part (s.threads i).phase
  phase : ∀ i, PhaseOk src s.ids s.returned (s.threads i).phase
  order : ∀ i, prog i = (by' i s.returned).map (·.msg) ++ current (s.threads i).phase ++ (s.threads i).todo
  done : ∀ d ∈ s.returned, framesOf src d.msg d.tid = .ok d.frames
  split : ∀ a d b, s.returned = a ++ d :: b → d.tid = countOf d.msg.dt.dtid a % 32 ∧
    ∃ pre f post, s.bus = pre ++ (d.thread, f) :: post ∧
      Threads.mine d.thread (pre ++ [(d.thread, f)]) = (by' d.thread a).flatMap (·.frames) ++ d.frames
  ids : ∀ i, ∀ m ∈ prog i, (s.ids.get? m.dt.dtid).getD 0 = (countOf m.dt.dtid s.returned + busy m.dt.dtid (s.threads i).phase) % 32

theorem mine_snoc (i j : Nat) (bus : List (Nat × Frame)) (f : Frame) :
    mine i (bus ++ [(j, f)]) = if j = i then mine i bus ++ [f] else mine i bus := by
  by_cases h : j = i <;> simp [mine, h]

theorem by_snoc (i : Nat) (l : List Done) (d : Done) : by' i (l ++ [d]) = if d.thread = i then by' i l ++ [d] else by' i l := by
  by_cases h : d.thread = i <;> simp [by', h]

theorem count_snoc (k : Nat) (l : List Done) (d : Done) :
    countOf k (l ++ [d]) = countOf k l + if d.msg.dt.dtid = k then 1 else 0 := by
  simp [countOf, List.countP_append, List.countP_cons]

/-- The last frame of a thread. -/
theorem last_mine {i : Nat} {bus : List (Nat × Frame)} {l : List Frame} {f : Frame} (h : mine i bus = l ++ [f]) :
    ∃ pre post, bus = pre ++ (i, f) :: post ∧ mine i (pre ++ [(i, f)]) = l ++ [f] := by
  induction hn : bus.length generalizing bus with
  | zero =>
    have : bus = [] := List.length_eq_zero_iff.1 hn
    subst this
    simp [mine] at h
  | succ n ih =>
    rcases List.eq_nil_or_concat bus with rfl | ⟨init, ⟨j, g⟩, rfl⟩
    · simp at hn
    · rw [List.concat_eq_append] at h hn
      by_cases hj : j = i
      · subst hj
        rw [mine_snoc, if_pos rfl] at h
        have hg : f = g := by
          have := List.append_inj' h rfl
          simpa using this.2.symm
        subst hg
        exact ⟨init, [], by simp, by rw [mine_snoc, if_pos rfl, h]⟩
      · rw [mine_snoc, if_neg hj] at h
        obtain ⟨pre, post, h1, h2⟩ := ih h (by simpa using hn)
        exact ⟨pre, post ++ [(j, g)], by rw [h1]; simp, h2⟩

theorem put_self (ths : Nat → Thread) (i : Nat) (t : Thread) : put ths i t i = t := by simp [put]
theorem put_ne (ths : Nat → Thread) {i j : Nat} (t : Thread) (h : j ≠ i) : put ths i t j = ths j := by simp [put, h]

theorem inv_step {src : Nat} {prog : Nat → List Msg} (hok : ∀ i, ∀ m ∈ prog i, Ok src m) (hsep : Separate prog) (i : Nat) {s : State}
    (h : Inv src prog s) : Inv src prog (step src i s) := by
  obtain ⟨ids, ths, bus, ret⟩ := s
  obtain ⟨h1, h2, h3, h4, h5, h6, h7⟩ := h
  simp only at h1 h2 h3 h4 h5 h6 h7
  have cur : ∀ m ∈ current (ths i).phase, m ∈ prog i := by
    intro m hm
    rw [h4 i]
    simp [hm]
  cases hp : (ths i).phase with
  | idle =>
    cases ht : (ths i).todo with
    | nil => simp only [step, hp, ht]; exact ⟨h1, h2, h3, h4, h5, h6, h7⟩
    | cons m todo =>
      simp only [step, hp, ht]
      refine ⟨h1, ?_, ?_, ?_, h5, h6, ?_⟩
      · intro j
        by_cases hj : j = i
        · subst hj; simpa [put_self, hp, part] using h2 j
        · simpa [put_ne _ _ hj] using h2 j
      · intro j
        by_cases hj : j = i
        · subst hj; simp [put_self, PhaseOk]
        · simpa [put_ne _ _ hj] using h3 j
      · intro j
        by_cases hj : j = i
        · subst hj; simpa [put_self, hp, ht, current] using h4 j
        · simpa [put_ne _ _ hj] using h4 j
      · intro j m' hm'
        by_cases hj : j = i
        · subst hj; simpa [put_self, hp, busy] using h7 j m' hm'
        · simpa [put_ne _ _ hj] using h7 j m' hm'
  | got m tid =>
    have hm : m ∈ prog i := cur m (by simp [hp, current])
    obtain ⟨t, t', frames, hf, -⟩ := framesOf_spec (hok i m hm) tid
    have hand : (tid + 1) &&& 0x1F = (tid + 1) % 32 := Nat.and_two_pow_sub_one_eq_mod (tid + 1) 5
    simp only [step, hp, hf, hand]
    have htid : tid = (ids.get? m.dt.dtid).getD 0 := by simpa [hp, PhaseOk] using h3 i
    have hcount : tid = countOf m.dt.dtid ret % 32 := by
      have := h7 i m hm
      rw [hp] at this
      simpa [busy, ← htid] using this
    refine ⟨h1, ?_, ?_, ?_, h5, h6, ?_⟩
    · intro j
      by_cases hj : j = i
      · subst hj; simpa [put_self, hp, part] using h2 j
      · simpa [put_ne _ _ hj] using h2 j
    · intro j
      by_cases hj : j = i
      · subst hj; simp only [put_self, PhaseOk, List.nil_append]; exact ⟨hf, hcount⟩
      · simp only [put_ne _ _ hj]
        have h3j := h3 j
        have curj : ∀ m ∈ current (ths j).phase, m ∈ prog j := by
          intro m hm
          rw [h4 j]
          simp [hm]
        cases hpj : (ths j).phase with
        | idle => trivial
        | got m' tid' =>
          rw [hpj] at h3j curj
          simp only [PhaseOk] at h3j ⊢
          have hne : m.dt.dtid ≠ m'.dt.dtid := fun e => hj (hsep i j m hm m' (curj m' (by simp [current])) e).symm
          rw [Dict.get?_set_ne _ _ hne]
          exact h3j
        | sending m' tid' a b => rw [hpj] at h3j; exact h3j
    · intro j
      by_cases hj : j = i
      · subst hj; simpa [put_self, hp, current] using h4 j
      · simpa [put_ne _ _ hj] using h4 j
    · intro j m' hm'
      by_cases hd : m.dt.dtid = m'.dt.dtid
      · have hj := hsep i j m hm m' hm' hd
        subst hj
        rw [← hd]
        simp only [Dict.get?_set, if_pos, put_self, busy, Option.getD_some]
        omega
      · rw [Dict.get?_set_ne _ _ hd]
        by_cases hj : j = i
        · subst hj
          have := h7 j m' hm'
          rw [hp] at this
          simpa [put_self, busy, hd] using this
        · simpa [put_ne _ _ hj] using h7 j m' hm'
  | sending m tid sent rest =>
    have hm : m ∈ prog i := cur m (by simp [hp, current])
    have h3i := h3 i
    rw [hp] at h3i
    simp only [PhaseOk] at h3i
    cases rest with
    | cons f rest =>
      simp only [step, hp]
      refine ⟨?_, ?_, ?_, ?_, h5, ?_, ?_⟩
      · intro x hx
        rcases List.mem_append.1 hx with hx | hx
        · exact h1 x hx
        · obtain rfl : x = (i, f) := by simpa using hx
          exact ⟨m, hm, (framesOf_id (hok i m hm) h3i.1).2.1 f (by simp)⟩
      · intro j
        by_cases hj : j = i
        · subst hj
          have := h2 j
          rw [hp] at this
          simp only [part] at this
          simp only [mine_snoc, if_pos, put_self, part, this, List.append_assoc]
        · simp only [mine_snoc, if_neg (Ne.symm hj), put_ne _ _ hj]
          exact h2 j
      · intro j
        by_cases hj : j = i
        · subst hj; simp only [put_self, PhaseOk, List.append_assoc, List.singleton_append]; exact h3i
        · simpa [put_ne _ _ hj] using h3 j
      · intro j
        by_cases hj : j = i
        · subst hj; simpa [put_self, hp, current] using h4 j
        · simpa [put_ne _ _ hj] using h4 j
      · intro a d b hret
        obtain ⟨e1, pre, g, post, e2, e3⟩ := h6 a d b hret
        exact ⟨e1, pre, g, post ++ [(i, f)], by rw [e2]; simp, e3⟩
      · intro j m' hm'
        by_cases hj : j = i
        · subst hj; simpa [put_self, hp, busy] using h7 j m' hm'
        · simpa [put_ne _ _ hj] using h7 j m' hm'
    | nil =>
      rw [List.append_nil] at h3i
      simp only [step, hp]
      have h2i := h2 i
      rw [hp] at h2i
      simp only [part] at h2i
      refine ⟨h1, ?_, ?_, ?_, ?_, ?_, ?_⟩
      · intro j
        rw [by_snoc]
        by_cases hj : j = i
        · subst hj
          simp only [put_self, part, if_pos, List.append_nil, List.flatMap_append, List.flatMap_cons, List.flatMap_nil]
          exact h2i
        · simp only [put_ne _ _ hj, if_neg (Ne.symm hj)]
          exact h2 j
      · intro j
        by_cases hj : j = i
        · subst hj; simp only [put_self, PhaseOk]
        · simp only [put_ne _ _ hj]
          have h3j := h3 j
          have curj : ∀ m ∈ current (ths j).phase, m ∈ prog j := by
            intro m hm
            rw [h4 j]
            simp [hm]
          cases hpj : (ths j).phase with
          | idle => trivial
          | got m' tid' => rw [hpj] at h3j; exact h3j
          | sending m' tid' a b =>
            rw [hpj] at h3j curj
            simp only [PhaseOk] at h3j ⊢
            have hne : m.dt.dtid ≠ m'.dt.dtid := fun e => hj (hsep i j m hm m' (curj m' (by simp [current])) e).symm
            rw [count_snoc, if_neg hne]
            exact h3j
      · intro j
        rw [by_snoc]
        by_cases hj : j = i
        · subst hj; simpa [put_self, hp, current] using h4 j
        · simp only [put_ne _ _ hj, if_neg (Ne.symm hj)]
          exact h4 j
      · intro d hd
        rcases List.mem_append.1 hd with hd | hd
        · exact h5 d hd
        · obtain rfl : d = ⟨i, m, tid, sent⟩ := by simpa using hd
          exact h3i.1
      · intro a d b hret
        rcases List.eq_nil_or_concat b with rfl | ⟨b', e, rfl⟩
        · have := List.append_inj' hret rfl
          obtain ⟨rfl, hd⟩ := this
          obtain rfl : d = ⟨i, m, tid, sent⟩ := by simpa using hd.symm
          refine ⟨h3i.2, ?_⟩
          have hne := (framesOf_id (hok i m hm) h3i.1).1
          rcases List.eq_nil_or_concat sent with rfl | ⟨init, g, rfl⟩
          · exact absurd rfl hne
          · rw [List.concat_eq_append] at h2i ⊢
            rw [← List.append_assoc] at h2i
            obtain ⟨pre, post, e1, e2⟩ := last_mine h2i
            exact ⟨pre, g, post, e1, by rw [e2, List.append_assoc]⟩
        · rw [List.concat_eq_append] at hret
          have : ret = a ++ d :: b' := by
            have : ret ++ [⟨i, m, tid, sent⟩] = (a ++ d :: b') ++ [e] := by simpa using hret
            exact (List.append_inj' this rfl).1
          exact h6 a d b' this
      · intro j m' hm'
        rw [count_snoc]
        by_cases hj : j = i
        · subst hj
          have := h7 j m' hm'
          rw [hp] at this
          simpa [put_self, busy] using this
        · have hne : m.dt.dtid ≠ m'.dt.dtid := fun e => hj (hsep i j m hm m' hm' e).symm
          simp only [put_ne _ _ hj, if_neg hne, Nat.add_zero]
          exact h7 j m' hm'

theorem inv_run {src : Nat} {prog : Nat → List Msg} (hok : ∀ i, ∀ m ∈ prog i, Ok src m) (hsep : Separate prog) (schedule : List Nat) :
    Inv src prog (run src prog schedule) := by
  have go : ∀ (l : List Nat) (s : State), Inv src prog s → Inv src prog (l.foldl (fun s i => step src i s) s) := by
    intro l
    induction l with
    | nil => exact fun s h => h
    | cons i l ih => exact fun s h => ih _ (inv_step hok hsep i h)
  refine go schedule _ ⟨by simp, fun i => rfl, fun i => trivial, fun i => by simp [by', current], by simp, ?_, fun i m hm => rfl⟩
  intro a d b h
  simp at h

/-! ## C149 -/

/-- **C149**: whatever the scheduler does, every broadcast that has returned arrives. -/
def C149_statement : Prop :=
  ∀ (src : Nat) (prog : Nat → List Msg) (schedule : List Nat) (db : Registry), (∀ i, ∀ m ∈ prog i, Ok src m) →
    ∀ d ∈ (run src prog schedule).returned, db d.msg.dt.dtid false = some d.msg.dt →
      Arrives db src ((run src prog schedule).bus.map (·.2)) d

/-- It is true if no two threads broadcast the same type; and a node that hears the bus, among other traffic that has other identifiers, receives the
message right after its last frame. -/
theorem C149_partial (src : Nat) (prog : Nat → List Msg) (schedule : List Nat) (db : Registry) (hok : ∀ i, ∀ m ∈ prog i, Ok src m)
    (hsep : Separate prog) (d : Done) (hd : d ∈ (run src prog schedule).returned) :
    (db d.msg.dt.dtid false = some d.msg.dt → Arrives db src ((run src prog schedule).bus.map (·.2)) d) ∧
    OnAir d.msg.dt false d.msg.canfd d.frames (arrival src d) ∧
    ∃ pre f post old, (run src prog schedule).bus.map (·.2) = pre ++ f :: post ∧ ofKey f.key (pre ++ [f]) = old ++ d.frames := by
  have inv := inv_run hok hsep schedule
  generalize run src prog schedule = s at inv hd ⊢
  obtain ⟨a, b, hab⟩ := List.append_of_mem hd
  obtain ⟨-, pre, f, post, hbus, hmine⟩ := inv.split a d b hab
  have hm : d.msg ∈ prog d.thread := by
    rw [inv.order d.thread]
    have : d ∈ by' d.thread s.returned := by simp [by', hd]
    simp only [List.append_assoc, List.mem_append, List.mem_map]
    exact .inl ⟨d, this, rfl⟩
  have hfr := inv.done d hd
  obtain ⟨hne, hid, hkey⟩ := framesOf_id (hok _ _ hm) hfr
  obtain ⟨t, t', fr, g1, g2, g3, -, g5⟩ := framesOf_spec (hok _ _ hm) d.tid
  rw [hfr] at g1
  injection g1 with g1
  subst g1
  -- the last frame is one of the message
  have hf : f ∈ d.frames := by
    rw [mine_snoc, if_pos rfl] at hmine
    rcases List.eq_nil_or_concat d.frames with e | ⟨init, g, e⟩
    · exact absurd e hne
    · rw [e, List.concat_eq_append, ← List.append_assoc] at hmine
      have := (List.append_inj' hmine rfl).2
      rw [e]
      simp only [List.cons.injEq, and_true] at this
      simp [this]
  -- frames with this key are all of this thread
  have hown : ofKey f.key ((pre ++ [(d.thread, f)]).map (·.2)) = ofKey f.key (mine d.thread (pre ++ [(d.thread, f)])) := by
    have sub : ∀ x ∈ pre ++ [(d.thread, f)], x ∈ s.bus := by
      intro x hx
      rw [hbus]
      simp only [List.mem_append, List.mem_cons, List.not_mem_nil, or_false] at hx ⊢
      rcases hx with hx | hx
      · exact .inl hx
      · exact .inr (.inl hx)
    generalize pre ++ [(d.thread, f)] = l at sub
    clear hmine
    simp only [ofKey, mine, List.filter_map, List.filter_filter]
    congr 1
    refine List.filter_congr fun x hx => ?_
    by_cases hk : x.2.key = f.key
    · have : x.1 = d.thread := by
        obtain ⟨m', hm', hid'⟩ := inv.tags x (sub x hx)
        have e1 : x.2.id = f.id := ((C21_key_and_flags _ _).1.1 hk).1
        rw [hid', hid f hf] at e1
        have e2 := congrArg decodeId e1
        rw [(C12_header_roundtrip _ (valid (hok _ _ hm'))).2.2, (C12_header_roundtrip _ (valid (hok _ _ hm))).2.2] at e2
        exact hsep _ _ m' hm' _ hm (congrArg Header.dtid e2)
      simp [hk, this]
    · simp [hk]
  have hall : ofKey f.key d.frames = d.frames := by
    simp only [ofKey, List.filter_eq_self, decide_eq_true_eq]
    exact fun g hg => hkey g hg f hf
  have hmap : ofKey f.key (pre.map (·.2) ++ [f]) = ofKey f.key ((by' d.thread a).flatMap (·.frames)) ++ d.frames := by
    have : pre.map (·.2) ++ [f] = (pre ++ [(d.thread, f)]).map (·.2) := by simp
    rw [this, hown, hmine]
    simp only [ofKey, List.filter_append] at hall ⊢
    rw [hall]
  have hbus' : s.bus.map (·.2) = pre.map (·.2) ++ f :: post.map (·.2) := by rw [hbus]; simp
  refine ⟨?_, ?_, pre.map (·.2), f, post.map (·.2), _, hbus', hmap⟩
  · intro hdb
    refine ⟨pre.map (·.2), f, post.map (·.2), d.frames, hbus', ?_, g5 db hdb⟩
    rw [hmap]
    refine completed_of_sent _ _ d.frames d.frames _ g3 ?_
    have hts : ∀ f ∈ d.frames, f.ts = none := by
      obtain ⟨id, _, _, e⟩ := toFrames_ok _ _ _ g3
      rw [e]
      intro f hf
      exact ((frameLoop_content _ _ _ _ _ _).2.1 f hf).2.2.1
    rw [List.map_congr_left (g := id) fun x hx => ?_]
    · simp
    · obtain ⟨a, b, c, ts⟩ := x
      have := hts _ hx
      simp only at this
      subst this
      rfl
  · exact onAir d.msg.dt _ d.tid d.msg.val d.msg.canfd t t' d.frames g2 g3 (valid (hok _ _ hm)) (hok _ _ hm).wf (hok _ _ hm).ty

/-- The transfer IDs of a type count from 0, modulo 32, in the order in which the calls return. -/
theorem C149_ids_partial (src : Nat) (prog : Nat → List Msg) (schedule : List Nat) (hok : ∀ i, ∀ m ∈ prog i, Ok src m) (hsep : Separate prog)
    (a b : List Done) (d : Done) (hd : (run src prog schedule).returned = a ++ d :: b) :
    d.tid = a.countP (·.msg.dt.dtid = d.msg.dt.dtid) % 32 :=
  ((inv_run hok hsep schedule).split a d b hd).1

/-- Each thread broadcasts its messages in their order: those of which the call has returned are a beginning of its program, all of it if it is
waiting for nothing more. Their frames are on the bus in this order, and besides them only a part of the next one. -/
theorem C149_order_partial (src : Nat) (prog : Nat → List Msg) (schedule : List Nat) (hok : ∀ i, ∀ m ∈ prog i, Ok src m) (hsep : Separate prog)
    (i : Nat) :
    let s := run src prog schedule
    let mine := s.returned.filter (·.thread = i)
    (∃ more, prog i = mine.map (·.msg) ++ more) ∧
    ((s.threads i).phase = .idle → (s.threads i).todo = [] → prog i = mine.map (·.msg)) ∧
    ∃ part, (s.bus.filter (·.1 = i)).map (·.2) = mine.flatMap (·.frames) ++ part ∧ ((s.threads i).phase = .idle → part = []) ∧
      (part ≠ [] → ∃ m tid rest, (∃ more, prog i = mine.map (·.msg) ++ m :: more) ∧ framesOf src m tid = .ok (part ++ rest)) := by
  have inv := inv_run hok hsep schedule
  generalize run src prog schedule = s at inv ⊢
  refine ⟨⟨_, (inv.order i).trans (List.append_assoc _ _ _)⟩, ?_, part (s.threads i).phase, inv.mine i, ?_, ?_⟩
  · intro h1 h2
    have := inv.order i
    rw [h1, h2] at this
    simpa [current, by'] using this
  · intro h
    rw [h]
    rfl
  · intro hne
    have h3 := inv.phase i
    have h4 := inv.order i
    cases hp : (s.threads i).phase with
    | idle => rw [hp] at hne; exact absurd rfl hne
    | got m tid => rw [hp] at hne; exact absurd rfl hne
    | sending m tid sent rest =>
      rw [hp] at h3 h4
      simp only [PhaseOk] at h3
      exact ⟨m, tid, rest, ⟨(s.threads i).todo, by simpa [current, by'] using h4⟩, h3.1⟩

/-! ## Several threads with the same type -/

/-- A type of eight bytes, of which a message takes two frames. -/
def eight (dtid : Nat) : DataType := { dtid, baseCrc := 0xFFFF, msg := .comp false (List.replicate 8 (.prim ⟨.unsigned, 8, true⟩)) }

/-- A message in which all bytes are this bit. -/
def msg (dtid : Nat) (b : Bool) : Msg := { dt := eight dtid, val := .comp none (List.replicate 8 (.prim (List.replicate 8 b))) }

theorem msg_ok (dtid : Nat) (h : dtid < 65536) (b : Bool) : Ok 100 (msg dtid b) where
  dtid := h
  prio := by show (20 : Nat) < 32; decide
  src1 := by decide
  src2 := by decide
  wf := by show WfTy (.comp false (List.replicate 8 (.prim ⟨.unsigned, 8, true⟩))) = true; decide +kernel
  ty := by
    show hasTy (.comp false (List.replicate 8 (.prim ⟨.unsigned, 8, true⟩))) (.comp none (List.replicate 8 (.prim (List.replicate 8 b)))) = true
    cases b <;> decide +kernel

/-- Two threads, each with one message. -/
def two (d0 d1 : Nat) : Nat → List Msg
  | 0 => [msg d0 false]
  | 1 => [msg d1 true]
  | _ => []

/-- The threads take turns. -/
def turns : List Nat := [0, 1, 0, 1, 0, 1, 0, 1, 0, 1]

theorem two_ok (d0 d1 : Nat) (h0 : d0 < 65536) (h1 : d1 < 65536) : ∀ i, ∀ m ∈ two d0 d1 i, Ok 100 m := by
  intro i m hm
  match i, hm with
  | 0, hm => obtain rfl : m = msg d0 false := by simpa [two] using hm
             exact msg_ok d0 h0 false
  | 1, hm => obtain rfl : m = msg d1 true := by simpa [two] using hm
             exact msg_ok d1 h1 true
  | _ + 2, hm => cases hm

/-- Both have the transfer ID 0, and the frames on the bus are interleaved. -/
theorem two_run : (run 100 (two 7 7) turns).returned.map (fun d => (d.thread, d.tid)) = [(0, 0), (1, 0)] ∧
    (run 100 (two 7 7) turns).bus.map (·.1) = [0, 1, 0, 1] := by decide +kernel

/-- What each frame completes for a receiver. -/
def completes (bus : List Frame) : List (Option (List Frame)) :=
  (List.range bus.length).map fun n => (receiveFrame (runManager [] ((bus.take n).map fun f => (0, f))).1 0 (bus.getD n { id := 0, bytes := [] })).2

theorem not_arrives {db : Registry} {src : Nat} {bus : List Frame} {d : Done}
    (h : ∀ p, some p ∈ completes bus → ∀ tr, fromFrames db p ≠ .ok tr) : ¬ Arrives db src bus d := by
  rintro ⟨pre, f, post, p, rfl, hc, hp⟩
  refine h p ?_ _ hp
  have := (C21_reassembled_iff (pre.map fun f => (0, f)) 0 f p).2 (by simpa [List.map_map, Function.comp_def] using hc)
  simp only [completes, List.mem_map, List.mem_range]
  refine ⟨pre.length, by simp, ?_⟩
  rw [← this]
  simp

/-- What has been broadcast is in the program of the thread. -/
theorem from_program (src : Nat) (prog : Nat → List Msg) (schedule : List Nat) :
    ∀ d ∈ (run src prog schedule).returned, d.msg ∈ prog d.thread := by
  have go : ∀ (l : List Nat) (s : State), (∀ i, ∀ m ∈ current (s.threads i).phase ++ (s.threads i).todo, m ∈ prog i) →
      (∀ d ∈ s.returned, d.msg ∈ prog d.thread) → ∀ d ∈ (l.foldl (fun s i => step src i s) s).returned, d.msg ∈ prog d.thread := by
    intro l
    induction l with
    | nil => exact fun s _ h => h
    | cons i l ih =>
      intro s h1 h2
      have hput : ∀ t, (∀ m ∈ current t.phase ++ t.todo, m ∈ current (s.threads i).phase ++ (s.threads i).todo) →
          ∀ j, ∀ m ∈ current (put s.threads i t j).phase ++ (put s.threads i t j).todo, m ∈ prog j := by
        intro t ht j m hm
        by_cases hj : j = i
        · subst hj
          rw [put_self] at hm
          exact h1 j m (ht m hm)
        · rw [put_ne _ _ hj] at hm
          exact h1 j m hm
      refine ih (step src i s) ?_ ?_
      · simp only [step]
        split
        · split
          · exact h1
          · rename_i hp _ _ _ ht
            exact hput _ (by simp [hp, ht, current])
        · rename_i m tid hp
          split
          · exact hput _ (by simp +contextual [current])
          · exact hput _ (by simp [hp, current])
        · rename_i hp
          exact hput _ (by simp [hp, current])
        · exact hput _ (by simp +contextual [current])
      · simp only [step]
        split
        · split <;> exact h2
        · split <;> exact h2
        · exact h2
        · rename_i m tid sent hp
          intro d hd
          rcases List.mem_append.1 hd with hd | hd
          · exact h2 d hd
          · obtain rfl : d = ⟨i, m, tid, sent⟩ := by simpa using hd
            exact h1 i m (by simp [hp, current])
  exact go schedule _ (fun i m hm => by simpa [current] using hm) (by simp)

/-- Neither of the two messages arrives. -/
theorem two_lost (d : Done) : ¬ Arrives (fun _ _ => some (eight 7)) 100 ((run 100 (two 7 7) turns).bus.map (·.2)) d := by
  have hall : (completes ((run 100 (two 7 7) turns).bus.map (·.2))).all (fun o => match o with
      | none => true
      | some p => (fromFrames (fun _ _ => some (eight 7)) p).toOption.isNone) = true := by decide +kernel
  refine not_arrives fun p hp tr htr => ?_
  have := List.all_eq_true.1 hall _ hp
  simp only [htr] at this
  cases this

/-- **C149** is false: two threads that broadcast the same type can use the same transfer ID, and if their frames are interleaved then neither message
arrives. -/
theorem C149_counterexample : ¬ C149_statement := by
  intro h
  have hr := two_run.1
  cases hret : (run 100 (two 7 7) turns).returned with
  | nil => rw [hret] at hr; cases hr
  | cons d l =>
    have hd : d ∈ (run 100 (two 7 7) turns).returned := by rw [hret]; simp
    refine two_lost d (h 100 (two 7 7) turns (fun _ _ => some (eight 7)) (two_ok 7 7 (by decide) (by decide)) d hd ?_)
    have hm := from_program 100 (two 7 7) turns d hd
    obtain ⟨i, m, tid, fr⟩ := d
    match i, hm with
    | 0, hm => obtain rfl : m = msg 7 false := by simpa [two] using hm
               rfl
    | 1, hm => obtain rfl : m = msg 7 true := by simpa [two] using hm
               rfl
    | _ + 2, hm => cases hm

/-- Not vacuous: the same with two types, where the frames are interleaved, too. -/
example : (∀ i, ∀ m ∈ two 7 8 i, Ok 100 m) ∧ Separate (two 7 8) ∧
    (run 100 (two 7 8) turns).returned.map (fun d => (d.thread, d.tid)) = [(0, 0), (1, 0)] ∧
    (run 100 (two 7 8) turns).bus.map (·.1) = [0, 1, 0, 1] := by
  refine ⟨two_ok 7 8 (by decide) (by decide), ?_, by decide +kernel, by decide +kernel⟩
  intro i j m hm m' hm' e
  match i, j, hm, hm' with
  | 0, 0, _, _ => rfl
  | 1, 1, _, _ => rfl
  | 0, 1, hm, hm' =>
    obtain rfl : m = msg 7 false := by simpa [two] using hm
    obtain rfl : m' = msg 8 true := by simpa [two] using hm'
    cases e
  | 1, 0, hm, hm' =>
    obtain rfl : m = msg 8 true := by simpa [two] using hm
    obtain rfl : m' = msg 7 false := by simpa [two] using hm'
    cases e
  | _ + 2, _, hm, _ => cases hm
  | _, _ + 2, _, hm' => cases hm'

end Threads
end Dronecan
