import Verif.Model.Mavcan
import Verif.Proofs.Struct

/-!
# The driver for CAN over MAVLink (C94, C95, C96, C97)
-/

namespace Dronecan
namespace Mavcan
open Can

/-! ## Specification -/

/-- In a history, `P` holds of every event and the history before it. -/
def All (P : List Ev → Ev → Prop) (t : List Ev) : Prop := ∀ pre x post, t = pre ++ x :: post → P pre x

def acceptedOf (t : List Ev) : List Item := t.filterMap fun
  | .accepted i => some i
  | _ => none

def takenOf (t : List Ev) : List Item := t.filterMap fun
  | .taken i => some i
  | _ => none

/-- The bus selected by the last `set_bus` that has been taken from the queue. -/
def busAfter (b : Int) : List Item → Int
  | [] => b
  | .bus n :: l => busAfter n l
  | _ :: l => busAfter b l

/-- The signing key set last. -/
def keyAfter (k : Option (List Byte)) : List Item → Option (List Byte)
  | [] => k
  | .key k' :: l => keyAfter (some k') l
  | _ :: l => keyAfter k l

/-- The filter list set last. -/
def filterAfter (x : Option (List Nat)) : List Item → Option (List Nat)
  | [] => x
  | .filter x' :: l => filterAfter x' l
  | _ :: l => filterAfter x l

/-- The key that the present connection signs with. -/
def signing (k : Option (List Byte)) : List Ev → Option (List Byte)
  | [] => k
  | .connected :: t => signing none t
  | .signed k' :: t => signing (some k') t
  | _ :: t => signing k t

/-- The system that messages are addressed to: the configured one or, if none is configured (0), that of the first message received. -/
def targetAfter (n : Nat) : List Ev → Nat
  | [] => n
  | .got source _ _ _ _ :: t => targetAfter (if n = 0 then source else n) t
  | _ :: t => targetAfter n t

/-- A frame that fits into a CAN or CAN FD frame. -/
structure Valid (f : CANFrame) : Prop where
  id0 : 0 ≤ f.canId
  id1 : f.canId < 2 ^ 29
  len : f.data.length ≤ if f.canfd then 64 else 8

/-- The message is the frame `f` for the given bus: the identifier with bit 31 for extended frames, the length, the data filled up with zeros. -/
structure Carries (bus : Int) (f : CANFrame) (m : Msg) : Prop where
  bus : m.bus = bus
  canfd : m.canfd = f.canfd
  len : m.len = f.data.length
  data : ∃ n, m.data = f.data ++ List.replicate n 0
  size : Valid f → m.data.length = if f.canfd then 64 else 8
  id : Valid f → m.id = f.canId + if f.extended then 2 ^ 31 else 0

/-- The frame in a received message. -/
structure Holds (num : Nat) (bytes : List Byte) (count : Nat) (fd : Bool) (f : CANFrame) : Prop where
  id : f.canId = ((num % 2 ^ 29 : Nat) : Int)
  extended : f.extended = decide (num / 2 ^ 31 % 2 = 1)
  data : ∃ rest, bytes = f.data ++ rest ∧ f.data.length = min count bytes.length
  canfd : f.canfd = fd

/-- Every frame taken from the queue is handed to the connection at once, and nothing else is: for the bus selected last before it, addressed to the
system known, and signed with the key set last before it. -/
def SentRight (bus : Int) (target : Nat) (pre : List Ev) (x : Ev) : Prop :=
  (∀ f, pre.getLast? = some (.taken (.frame f)) → ∃ raised tg m, x = .out raised tg m) ∧
  ∀ raised tg m, x = .out raised tg m → tg = targetAfter target pre ∧ signing none pre = keyAfter none (takenOf pre) ∧
    ∃ f, pre.getLast? = some (.taken (.frame f)) ∧ Carries (busAfter bus (takenOf pre)) f m

/-- What is delivered is what has been received, at once. -/
def DeliveredRight (pre : List Ev) (x : Ev) : Prop :=
  (∀ src id data len fd, pre.getLast? = some (.got src id data len fd) → ∃ f, x = .delivered f) ∧
  ∀ f, x = .delivered f → ∃ src id data len fd, pre.getLast? = some (.got src id data len fd) ∧ Holds id data len fd f

/-- Forwarding is requested for the bus selected last, followed by the filter list set last: its first 16 identifiers, sorted. -/
def ForwardRight (bus : Int) (target : Nat) (pre : List Ev) (x : Ev) : Prop :=
  (∀ t tg b, x = .forward t tg b → tg = targetAfter target pre ∧ b = busAfter bus (takenOf pre) + 1) ∧
  (∀ t tg b, pre.getLast? = some (.forward t tg b) → filterAfter none (takenOf pre) ≠ none → ∃ num ids, x = .filtered tg b num ids) ∧
  ∀ tg b num ids, x = .filtered tg b num ids → ∃ t l, pre.getLast? = some (.forward t tg b) ∧ filterAfter none (takenOf pre) = some l ∧
    ids.length = 16 ∧ num = min 16 l.length ∧ (ids.take num).Perm (l.take 16) ∧ (ids.take num).Pairwise (· ≤ ·)

/-! ## Histories -/

theorem All.nil {P : List Ev → Ev → Prop} : All P [] := by
  intro pre x post h
  cases pre <;> cases h

theorem All.snoc {P : List Ev → Ev → Prop} {t : List Ev} {x : Ev} (h : All P t) (hx : P t x) : All P (t ++ [x]) := by
  intro pre y post he
  rcases List.eq_nil_or_concat post with rfl | ⟨post', z, rfl⟩
  · obtain ⟨h1, h2⟩ := List.append_inj' he (by rfl)
    injection h2 with h2 _
    subst h1 h2
    exact hx
  · have he' : t ++ [x] = (pre ++ y :: post') ++ [z] := by
      rw [he]
      simp
    exact h pre y post' (List.append_inj_left' he' rfl)

theorem takenOf_snoc (t : List Ev) (x : Ev) : takenOf (t ++ [x]) = takenOf t ++ takenOf [x] := List.filterMap_append

theorem acceptedOf_snoc (t : List Ev) (x : Ev) : acceptedOf (t ++ [x]) = acceptedOf t ++ acceptedOf [x] := List.filterMap_append

theorem busAfter_append (b : Int) (l r : List Item) : busAfter b (l ++ r) = busAfter (busAfter b l) r := by
  induction l generalizing b with
  | nil => rfl
  | cons i l ih => cases i <;> exact ih _

theorem keyAfter_append (k : Option (List Byte)) (l r : List Item) : keyAfter k (l ++ r) = keyAfter (keyAfter k l) r := by
  induction l generalizing k with
  | nil => rfl
  | cons i l ih => cases i <;> exact ih _

theorem filterAfter_append (x : Option (List Nat)) (l r : List Item) : filterAfter x (l ++ r) = filterAfter (filterAfter x l) r := by
  induction l generalizing x with
  | nil => rfl
  | cons i l ih => cases i <;> exact ih _

theorem signing_append (k : Option (List Byte)) (l r : List Ev) : signing k (l ++ r) = signing (signing k l) r := by
  induction l generalizing k with
  | nil => rfl
  | cons i l ih => cases i <;> exact ih _

theorem targetAfter_append (n : Nat) (l r : List Ev) : targetAfter n (l ++ r) = targetAfter (targetAfter n l) r := by
  induction l generalizing n with
  | nil => rfl
  | cons i l ih => cases i <;> exact ih _

/-! ## Sorting -/

theorem insert_perm (x : Nat) (l : List Nat) : (insert x l).Perm (x :: l) := by
  induction l with
  | nil => exact .refl _
  | cons y ys ih =>
    unfold insert
    split
    · exact .refl _
    · exact (ih.cons y).trans (.swap x y ys)

theorem insert_sorted (x : Nat) (l : List Nat) (h : l.Pairwise (· ≤ ·)) : (insert x l).Pairwise (· ≤ ·) := by
  induction l with
  | nil => simp [insert]
  | cons y ys ih =>
    rw [List.pairwise_cons] at h
    unfold insert
    split
    · rename_i hxy
      rw [List.pairwise_cons]
      refine ⟨?_, List.pairwise_cons.2 h⟩
      intro z hz
      rcases List.mem_cons.1 hz with rfl | hz
      · exact hxy
      · have := h.1 z hz
        omega
    · rename_i hxy
      rw [List.pairwise_cons]
      refine ⟨?_, ih h.2⟩
      intro z hz
      rcases List.mem_cons.1 ((insert_perm x ys).mem_iff.1 hz) with rfl | hz
      · omega
      · exact h.1 z hz

theorem sorted_perm (l : List Nat) : (sorted l).Perm l := by
  induction l with
  | nil => exact .refl _
  | cons x xs ih => exact (insert_perm x _).trans (ih.cons x)

theorem sorted_sorted (l : List Nat) : (sorted l).Pairwise (· ≤ ·) := by
  induction l with
  | nil => exact .nil
  | cons x xs ih => exact insert_sorted x _ ih

/-! ## Messages -/

theorem encode_carries (bus : Int) (f : CANFrame) : Carries bus f (encode bus f) := by
  refine ⟨rfl, rfl, rfl, ?_, ?_, ?_⟩
  · unfold encode
    split
    · exact ⟨_, rfl⟩
    · exact ⟨0, by simp⟩
  · intro hv
    have h : ∀ n, f.data.length ≤ n →
        (if f.data.length < n then f.data ++ List.replicate (n - f.data.length) 0 else f.data : List Byte).length = n := by
      intro n hn
      split
      · simp
        omega
      · omega
    exact h _ hv.len
  · intro hv
    exact messageId_add f hv.id0 hv.id1

theorem decode_holds (id : Nat) (data : List Byte) (len : Nat) (canfd : Bool) : Holds id data len canfd (decode id data len canfd) := by
  refine ⟨?_, ?_, ⟨data.drop len, by simp [decode]⟩, rfl⟩
  · show (((id &&& (2 ^ 29 - 1) : Nat)) : Int) = _
    rw [Nat.and_two_pow_sub_one_eq_mod]
  · exact Nat.testBit_eq_decide_div_mod_eq

/-- What one MAVLink driver sends another one receives. -/
theorem received_back (bus : Int) (f : CANFrame) (hv : Valid f) (m : Msg) (hc : Carries bus f m) :
    0 ≤ m.id ∧ m.id < 2 ^ 32 ∧ m.len < 256 ∧ ∀ g, Holds m.id.toNat m.data m.len m.canfd g → g = f := by
  have hid := hc.id hv
  have h0 := hv.id0
  have h1 := hv.id1
  have h2 := hv.len
  have hl : f.data.length ≤ 64 := by
    cases hfd : f.canfd <;> simp only [hfd] at h2 <;> simp at h2 <;> omega
  refine ⟨?_, ?_, by rw [hc.len]; omega, ?_⟩
  · rw [hid]
    split <;> omega
  · rw [hid]
    split <;> omega
  · intro g hg
    obtain ⟨rest, hr, hlen⟩ := hg.data
    obtain ⟨n, hn⟩ := hc.data
    have e1 : g.canId = f.canId := by
      rw [hg.id, hid]
      split <;> omega
    have e2 : g.data = f.data := by
      rw [hn] at hr hlen
      refine (List.append_inj hr ?_).1.symm
      rw [hlen, hc.len]
      simp
    have e3 : g.extended = f.extended := by
      rw [hg.extended, hid]
      cases f.extended with
      | false =>
        rw [if_neg (by decide)]
        exact decide_eq_false (by omega)
      | true =>
        rw [if_pos rfl]
        exact decide_eq_true (by omega)
    have e4 : g.canfd = f.canfd := by rw [hg.canfd, hc.canfd]
    cases g
    cases f
    simp_all

/-! ## The invariant -/

/-- Events that nothing is said about. -/
def Ev.plain : Ev → Bool
  | .out _ _ _ => false
  | .forward _ _ _ => false
  | .filtered _ _ _ _ => false
  | .delivered _ => false
  | _ => true

/-- The history up to here awaits nothing. -/
structure Settled (t : List Ev) : Prop where
  frame : ∀ f, t.getLast? ≠ some (.taken (.frame f))
  got : ∀ src id data len fd, t.getLast? ≠ some (.got src id data len fd)
  forward : ∀ n tg b, t.getLast? = some (.forward n tg b) → filterAfter none (takenOf t) = none

structure Good (b0 : Int) (t0 : Nat) (t : List Ev) : Prop where
  sent : All (SentRight b0 t0) t
  deliv : All DeliveredRight t
  fwd : All (ForwardRight b0 t0) t

theorem Good.plain {b0 : Int} {t0 : Nat} {t : List Ev} (h : Good b0 t0 t) (hs : Settled t) {x : Ev} (hx : x.plain = true) : Good b0 t0 (t ++ [x]) := by
  refine ⟨h.sent.snoc ⟨fun f hf => absurd hf (hs.frame f), ?_⟩, h.deliv.snoc ⟨fun _ _ _ _ _ hf => absurd hf (hs.got _ _ _ _ _), ?_⟩,
    h.fwd.snoc ⟨?_, fun _ _ _ hf hn => absurd (hs.forward _ _ _ hf) hn, ?_⟩⟩
  all_goals
    intros
    subst_vars
    cases hx

/-- An event that awaits nothing. -/
def Ev.calm : Ev → Bool
  | .taken (.frame _) => false
  | .got _ _ _ _ _ => false
  | .forward _ _ _ => false
  | _ => true

theorem settled_snoc (t : List Ev) {x : Ev} (hx : x.calm = true) : Settled (t ++ [x]) := by
  refine ⟨?_, ?_, ?_⟩
  all_goals
    intros
    first
    | intro h
      rw [List.getLast?_concat] at h
      injection h with h
      subst h
      cases hx
    | rename_i h
      rw [List.getLast?_concat] at h
      injection h with h
      subst h
      cases hx

structure Inv (b0 : Int) (t0 : Nat) (s : State) : Prop where
  rw : s.readonly = false
  queue : acceptedOf s.trace = takenOf s.trace ++ s.queue
  bus : s.bus = busAfter b0 (takenOf s.trace)
  key : s.key = keyAfter none (takenOf s.trace)
  filter : s.filter = filterAfter none (takenOf s.trace)
  target : s.target = targetAfter t0 s.trace
  signing : signing none s.trace = s.key
  good : Good b0 t0 s.trace
  settled : Settled s.trace

/-- A plain event that changes nothing that the invariant mentions. -/
def Ev.idle : Ev → Bool
  | .refused _ => true
  | .badBus => true
  | .ended => true
  | _ => false

theorem Inv.idle {b0 : Int} {t0 : Nat} {s : State} (h : Inv b0 t0 s) {x : Ev} (hx : x.idle = true) : Inv b0 t0 (emit x s) := by
  have hp : x.plain = true := by cases x <;> first | rfl | cases hx
  have hc : x.calm = true := by cases x <;> first | rfl | cases hx
  have ha : acceptedOf [x] = [] := by cases x <;> first | rfl | cases hx
  have hk : takenOf [x] = [] := by cases x <;> first | rfl | cases hx
  have hs : ∀ k, Mavcan.signing k [x] = k := by intro k; cases x <;> first | rfl | cases hx
  have ht : ∀ k, targetAfter k [x] = k := by intro k; cases x <;> first | rfl | cases hx
  refine ⟨h.rw, ?_, ?_, ?_, ?_, ?_, ?_, h.good.plain h.settled hp, settled_snoc _ hc⟩
  all_goals
    simp only [emit, acceptedOf_snoc, takenOf_snoc, ha, hk, List.append_nil, signing_append, targetAfter_append, hs, ht]
  · exact h.queue
  · exact h.bus
  · exact h.key
  · exact h.filter
  · exact h.target
  · exact h.signing

theorem Inv.put {b0 : Int} {t0 : Nat} {s : State} (h : Inv b0 t0 s) (i : Item) : Inv b0 t0 (put i s) := by
  unfold Mavcan.put
  split
  · have hk : takenOf (s.trace ++ [.accepted i]) = takenOf s.trace := by
      rw [takenOf_snoc]
      exact List.append_nil _
    refine ⟨h.rw, ?_, by rw [hk]; exact h.bus, by rw [hk]; exact h.key, by rw [hk]; exact h.filter, ?_, ?_, h.good.plain h.settled rfl,
      settled_snoc _ rfl⟩
    · rw [hk, acceptedOf_snoc, h.queue, List.append_assoc]
      rfl
    · rw [targetAfter_append]
      exact h.target
    · rw [signing_append]
      exact h.signing
  · exact h.idle rfl

theorem Inv.announce {b0 : Int} {t0 : Nat} {s1 : State} (h' : Inv b0 t0 s1) : Inv b0 t0 (announce s1) := by
  have hg : Good b0 t0 (s1.trace ++ [.forward s1.lastEnable s1.target (s1.bus + 1)]) := by
    refine ⟨h'.good.sent.snoc ⟨fun f hf => absurd hf (h'.settled.frame f), ?_⟩,
      h'.good.deliv.snoc ⟨fun _ _ _ _ _ hf => absurd hf (h'.settled.got _ _ _ _ _), ?_⟩,
      h'.good.fwd.snoc ⟨?_, fun _ _ _ hf hn => absurd (h'.settled.forward _ _ _ hf) hn, ?_⟩⟩
    · intro _ _ _ hx
      cases hx
    · intro _ hx
      cases hx
    · intro _ _ _ hx
      injection hx with _ h2 h3
      subst h2 h3
      exact ⟨h'.target, by rw [h'.bus]⟩
    · intro _ _ _ _ hx
      cases hx
  have hk : takenOf (s1.trace ++ [.forward s1.lastEnable s1.target (s1.bus + 1)]) = takenOf s1.trace := by
    rw [takenOf_snoc]
    exact List.append_nil _
  have hq : acceptedOf (s1.trace ++ [.forward s1.lastEnable s1.target (s1.bus + 1)]) = takenOf s1.trace ++ s1.queue := by
    rw [acceptedOf_snoc, h'.queue]
    exact List.append_nil _
  have ht : targetAfter t0 (s1.trace ++ [.forward s1.lastEnable s1.target (s1.bus + 1)]) = s1.target := by
    rw [targetAfter_append, ← h'.target]
    rfl
  have hsg : Mavcan.signing none (s1.trace ++ [.forward s1.lastEnable s1.target (s1.bus + 1)]) = s1.key := by
    rw [signing_append, h'.signing]
    rfl
  unfold Mavcan.announce
  cases hf : s1.filter with
  | none =>
    dsimp only [emit]
    refine ⟨h'.rw, by rw [hk]; exact hq, by rw [hk]; exact h'.bus, by rw [hk]; exact h'.key, by rw [hk]; exact h'.filter, ht.symm, hsg, hg, ?_, ?_, ?_⟩
    · intro f hl
      rw [List.getLast?_concat] at hl
      cases hl
    · intro _ _ _ _ _ hl
      rw [List.getLast?_concat] at hl
      cases hl
    · intro _ _ _ _
      rw [hk, ← h'.filter, hf]
  | some l =>
    dsimp only [emit]
    generalize hfd : (Ev.filtered s1.target (s1.bus + 1) (sorted (l.take 16)).length
      (if (sorted (l.take 16)).length < 16 then sorted (l.take 16) ++ List.replicate (16 - (sorted (l.take 16)).length) 0
        else sorted (l.take 16))) = x
    have hlen : (sorted (l.take 16)).length = min 16 l.length := by
      rw [(sorted_perm _).length_eq, List.length_take]
    have hx : ForwardRight b0 t0 (s1.trace ++ [.forward s1.lastEnable s1.target (s1.bus + 1)]) x := by
      refine ⟨?_, ?_, ?_⟩
      · intro _ _ _ hx
        rw [← hfd] at hx
        cases hx
      · intro t tg b hl _
        rw [List.getLast?_concat] at hl
        injection hl with hl
        injection hl with _ h2 h3
        rw [← h2, ← h3, ← hfd]
        exact ⟨_, _, rfl⟩
      · intro tg b num ids hx
        rw [← hfd] at hx
        injection hx with h1 h2 h3 h4
        subst h1 h2
        refine ⟨s1.lastEnable, l, List.getLast?_concat .., by rw [hk, ← h'.filter, hf], ?_, by omega, ?_, ?_⟩
        · rw [← h4]
          split
          · simp
            omega
          · omega
        · rw [← h4, ← h3]
          split
          · rw [List.take_left]
            exact sorted_perm _
          · rw [List.take_length]
            exact sorted_perm _
        · rw [← h4, ← h3]
          split
          · rw [List.take_left]
            exact sorted_sorted _
          · rw [List.take_length]
            exact sorted_sorted _
    have hk2 : takenOf (s1.trace ++ [.forward s1.lastEnable s1.target (s1.bus + 1)] ++ [x]) = takenOf s1.trace := by
      rw [takenOf_snoc, hk, ← hfd]
      exact List.append_nil _
    refine ⟨h'.rw, ?_, by rw [hk2]; exact h'.bus, by rw [hk2]; exact h'.key, by rw [hk2]; exact h'.filter, ?_, ?_, ?_, ?_⟩
    · rw [hk2, acceptedOf_snoc, hq, ← hfd]
      exact List.append_nil _
    · rw [targetAfter_append, ht, ← hfd]
      rfl
    · rw [signing_append, hsg, ← hfd]
      rfl
    · refine ⟨hg.sent.snoc ⟨?_, ?_⟩, hg.deliv.snoc ⟨?_, ?_⟩, hg.fwd.snoc hx⟩
      · intro f hl
        rw [List.getLast?_concat] at hl
        cases hl
      · intro _ _ _ hx
        rw [← hfd] at hx
        cases hx
      · intro _ _ _ _ _ hl
        rw [List.getLast?_concat] at hl
        cases hl
      · intro _ hx
        rw [← hfd] at hx
        cases hx
    · exact settled_snoc _ (by rw [← hfd]; rfl)

/-- A request to forward, and the filter list. -/
theorem Inv.enable {b0 : Int} {t0 : Nat} {s : State} (h : Inv b0 t0 s) (r : Io) : Inv b0 t0 (enable r s) := by
  unfold Mavcan.enable
  rw [if_neg (by rw [h.rw]; decide)]
  split
  · refine Inv.idle (s := { s with
      lastEnable := r.now + r.later
      alive := false }) ?_ rfl
    exact ⟨h.rw, h.queue, h.bus, h.key, h.filter, h.target, h.signing, h.good, h.settled⟩
  · refine Inv.announce (s1 := { s with lastEnable := r.now + r.later }) ?_
    exact ⟨h.rw, h.queue, h.bus, h.key, h.filter, h.target, h.signing, h.good, h.settled⟩

theorem Inv.connect {b0 : Int} {t0 : Nat} {s : State} (hrw : s.readonly = false) (hq : acceptedOf s.trace = takenOf s.trace ++ s.queue)
    (hb : s.bus = busAfter b0 (takenOf s.trace)) (hk : s.key = keyAfter none (takenOf s.trace))
    (hf : s.filter = filterAfter none (takenOf s.trace)) (ht : s.target = targetAfter t0 s.trace) (hg : Good b0 t0 s.trace) (hst : Settled s.trace) :
    Inv b0 t0 (connect s) := by
  have hk1 : ∀ x : Ev, takenOf [x] = [] → takenOf (s.trace ++ [x]) = takenOf s.trace := by
    intro x hx
    rw [takenOf_snoc, hx, List.append_nil]
  have g1 : Good b0 t0 (s.trace ++ [.connected]) := hg.plain hst rfl
  have s1 := settled_snoc s.trace (x := .connected) rfl
  unfold Mavcan.connect
  cases hkey : s.key with
  | none =>
    refine ⟨hrw, ?_, ?_, ?_, ?_, ?_, ?_, g1, s1⟩
    all_goals
      simp only [emit, acceptedOf_snoc, takenOf_snoc, signing_append, targetAfter_append]
      simp only [acceptedOf, takenOf, List.filterMap, List.append_nil, Mavcan.signing, targetAfter]
    · exact hq
    · exact hb
    · exact hk
    · exact hf
    · exact ht
    · exact hkey.symm
  | some k =>
    refine ⟨hrw, ?_, ?_, ?_, ?_, ?_, ?_, g1.plain s1 rfl, settled_snoc _ rfl⟩
    all_goals
      simp only [emit, acceptedOf_snoc, takenOf_snoc, signing_append, targetAfter_append]
      simp only [acceptedOf, takenOf, List.filterMap, List.append_nil, Mavcan.signing, targetAfter]
    · exact hq
    · exact hb
    · exact hk
    · exact hf
    · exact ht
    · exact hkey.symm

theorem Inv.receive {b0 : Int} {t0 : Nat} {s : State} (h : Inv b0 t0 s) (r : Io) : Inv b0 t0 (receive r s) := by
  unfold Mavcan.receive
  split
  · split
    · exact h.enable r
    · exact h
  · split
    · exact Inv.idle (s := { s with alive := false }) ⟨h.rw, h.queue, h.bus, h.key, h.filter, h.target, h.signing, h.good, h.settled⟩ rfl
    · exact Inv.connect h.rw h.queue h.bus h.key h.filter h.target h.good h.settled
  · rename_i source id data len fd _
    have g1 : Good b0 t0 (s.trace ++ [.got source id data len fd]) := h.good.plain h.settled rfl
    refine ⟨h.rw, ?_, ?_, ?_, ?_, ?_, ?_, ⟨g1.sent.snoc ⟨?_, ?_⟩, g1.deliv.snoc ⟨?_, ?_⟩, g1.fwd.snoc ⟨?_, ?_, ?_⟩⟩, settled_snoc _ rfl⟩
    iterate 6
      simp only [emit, acceptedOf_snoc, takenOf_snoc, signing_append, targetAfter_append]
      simp only [acceptedOf, takenOf, List.filterMap, List.append_nil, Mavcan.signing, targetAfter]
      first
      | exact h.queue
      | exact h.bus
      | exact h.key
      | exact h.filter
      | exact h.signing
      | (have ht := h.target; show (if s.target = 0 then source else s.target) = _; simp only [ht])
    · intro f hl
      rw [List.getLast?_concat] at hl
      cases hl
    · intro _ _ _ hx
      cases hx
    · intro _ _ _ _ _ _
      exact ⟨_, rfl⟩
    · intro f hx
      injection hx with hx
      subst hx
      exact ⟨source, id, data, len, fd, List.getLast?_concat .., decode_holds ..⟩
    · intro _ _ _ hx
      cases hx
    · intro _ _ _ hl
      rw [List.getLast?_concat] at hl
      cases hl
    · intro _ _ _ _ hx
      cases hx

theorem Inv.io {b0 : Int} {t0 : Nat} {s : State} (h : Inv b0 t0 s) (r : Io) : Inv b0 t0 (io r s) := by
  unfold Mavcan.io
  split
  · exact Inv.idle (s := { s with alive := false }) ⟨h.rw, h.queue, h.bus, h.key, h.filter, h.target, h.signing, h.good, h.settled⟩ rfl
  · split
    · rename_i i rest hq
      unfold handle
      rw [if_neg (by show ¬ s.readonly = true; rw [h.rw]; decide)]
      have g1 : Good b0 t0 (s.trace ++ [.taken i]) := h.good.plain h.settled rfl
      have hacc := h.queue
      rw [hq] at hacc
      have hbus := h.bus
      have hkey := h.key
      have hfil := h.filter
      have htar := h.target
      have hsig := h.signing
      cases i with
      | bus n =>
        refine ⟨h.rw, ?_, ?_, ?_, ?_, ?_, ?_, g1, settled_snoc _ rfl⟩
        all_goals
          simp only [emit, acceptedOf_snoc, takenOf_snoc, signing_append, targetAfter_append, busAfter_append, keyAfter_append, filterAfter_append]
          simp only [hacc, ← hbus, ← hkey, ← hfil, ← htar, hsig]
          simp [acceptedOf, takenOf, Mavcan.signing, targetAfter, busAfter, keyAfter, filterAfter]
      | filter l =>
        refine ⟨h.rw, ?_, ?_, ?_, ?_, ?_, ?_, g1, settled_snoc _ rfl⟩
        all_goals
          simp only [emit, acceptedOf_snoc, takenOf_snoc, signing_append, targetAfter_append, busAfter_append, keyAfter_append, filterAfter_append]
          simp only [hacc, ← hbus, ← hkey, ← hfil, ← htar, hsig]
          simp [acceptedOf, takenOf, Mavcan.signing, targetAfter, busAfter, keyAfter, filterAfter]
      | key k =>
        refine ⟨h.rw, ?_, ?_, ?_, ?_, ?_, ?_, g1.plain (settled_snoc _ rfl) rfl, settled_snoc _ rfl⟩
        all_goals
          simp only [emit, acceptedOf_snoc, takenOf_snoc, signing_append, targetAfter_append, busAfter_append, keyAfter_append, filterAfter_append]
          simp only [hacc, ← hbus, ← hkey, ← hfil, ← htar, hsig]
          simp [acceptedOf, takenOf, Mavcan.signing, targetAfter, busAfter, keyAfter, filterAfter]
      | frame f =>
        have hi : Inv b0 t0 (emit (.out r.sendRaises s.target (encode s.bus f)) (emit (.taken (.frame f)) { s with queue := rest })) := by
          refine ⟨h.rw, ?_, ?_, ?_, ?_, ?_, ?_, ⟨g1.sent.snoc ⟨?_, ?_⟩, g1.deliv.snoc ⟨?_, ?_⟩, g1.fwd.snoc ⟨?_, ?_, ?_⟩⟩, settled_snoc _ rfl⟩
          iterate 6
            simp only [emit, acceptedOf_snoc, takenOf_snoc, signing_append, targetAfter_append, busAfter_append, keyAfter_append, filterAfter_append]
            simp only [hacc, ← hbus, ← hkey, ← hfil, ← htar, hsig]
            simp [acceptedOf, takenOf, Mavcan.signing, targetAfter, busAfter, keyAfter, filterAfter]
          · intro _ _
            exact ⟨_, _, _, rfl⟩
          · intro raised tg m hx
            injection hx with h1 h2 h3
            subst h2 h3
            refine ⟨?_, ?_, f, List.getLast?_concat .., ?_⟩
            · rw [targetAfter_append]
              exact htar
            · rw [signing_append, takenOf_snoc, keyAfter_append, ← hkey, hsig]
              rfl
            · rw [takenOf_snoc, busAfter_append, ← hbus]
              exact encode_carries s.bus f
          · intro _ _ _ _ _ hl
            rw [List.getLast?_concat] at hl
            cases hl
          · intro _ hx
            cases hx
          · intro _ _ _ hx
            cases hx
          · intro _ _ _ hl
            rw [List.getLast?_concat] at hl
            cases hl
          · intro _ _ _ _ hx
            cases hx
        dsimp only
        split
        · exact hi.enable r
        · exact hi
    · exact h.receive r

theorem inv_run (bus : Int) (target : Nat) (r : Io) (steps : List Step) : Inv (bus - 1) target (run bus target false r steps) := by
  have h0 : Inv (bus - 1) target (start bus target false r) := by
    refine Inv.enable (Inv.connect rfl rfl rfl rfl rfl rfl ⟨All.nil, All.nil, All.nil⟩ ⟨?_, ?_, ?_⟩) r
    · intro f h
      cases h
    · intro _ _ _ _ _ h
      cases h
    · intro _ _ _ h
      cases h
  unfold run
  generalize start bus target false r = s at h0
  induction steps generalizing s with
  | nil => exact h0
  | cons st steps ih =>
    refine ih _ ?_
    cases st with
    | send f => exact h0.put _
    | setBus n =>
      show Inv (bus - 1) target (if n ≤ 0 then emit .badBus s else put (.bus (n - 1)) { s with appBus := n - 1 })
      split
      · exact h0.idle rfl
      · exact Inv.put (s := { s with appBus := n - 1 }) ⟨h0.rw, h0.queue, h0.bus, h0.key, h0.filter, h0.target, h0.signing, h0.good, h0.settled⟩ _
    | setFilter ids => exact h0.put _
    | setKey k => exact h0.put _
    | io r =>
      show Inv (bus - 1) target (if s.alive then Mavcan.io r s else s)
      split
      · exact h0.io r
      · exact h0

/-! ## Connections to log files -/

/-- What is sent. -/
def Ev.sends : Ev → Bool
  | .out _ _ _ => true
  | .forward _ _ _ => true
  | .filtered _ _ _ _ => true
  | .signed _ => true
  | _ => false

structure Reading (s : State) : Prop where
  ro : s.readonly = true
  key : s.key = none
  none : s.trace.any Ev.sends = false
  deliv : All DeliveredRight s.trace
  got : ∀ src id data len fd, s.trace.getLast? ≠ some (.got src id data len fd)

theorem Reading.plain {s : State} (h : Reading s) {x : Ev} (hx : x.sends = false) (hd : ∀ f, x ≠ .delivered f)
    (hg : ∀ src id data len fd, x ≠ .got src id data len fd) : Reading (emit x s) := by
  refine ⟨h.ro, h.key, ?_, h.deliv.snoc ⟨fun _ _ _ _ _ hf => absurd hf (h.got _ _ _ _ _), fun f hf => absurd hf (hd f)⟩, ?_⟩
  · simp [emit, h.none, hx]
  · intro _ _ _ _ _ hl
    simp only [emit, List.getLast?_concat] at hl
    injection hl with hl
    exact hg _ _ _ _ _ hl

theorem Reading.put {s : State} (h : Reading s) (i : Item) : Reading (put i s) := by
  unfold Mavcan.put
  split
  · have h' : Reading { s with queue := s.queue ++ [i] } := ⟨h.ro, h.key, h.none, h.deliv, h.got⟩
    exact h'.plain rfl (fun _ hf => by cases hf) (fun _ _ _ _ _ hf => by cases hf)
  · exact h.plain rfl (fun _ hf => by cases hf) (fun _ _ _ _ _ hf => by cases hf)

theorem Reading.ended {s : State} (h : Reading s) : Reading (emit .ended { s with alive := false }) := by
  have h' : Reading { s with alive := false } := ⟨h.ro, h.key, h.none, h.deliv, h.got⟩
  exact h'.plain rfl (fun _ hf => by cases hf) (fun _ _ _ _ _ hf => by cases hf)

theorem Reading.enable {s : State} (h : Reading s) (r : Io) : enable r s = s := by
  unfold Mavcan.enable
  rw [if_pos h.ro]

theorem Reading.connect {s : State} (h : Reading s) : Reading (connect s) := by
  unfold Mavcan.connect
  rw [h.key]
  exact h.plain rfl (fun _ hf => by cases hf) (fun _ _ _ _ _ hf => by cases hf)

theorem Reading.io {s : State} (h : Reading s) (r : Io) : Reading (io r s) := by
  unfold Mavcan.io
  split
  · exact h.ended
  · split
    · rename_i i rest hq
      unfold handle
      rw [if_pos (show (emit (.taken i) { s with queue := rest }).readonly = true from h.ro)]
      have h' : Reading { s with queue := rest } := ⟨h.ro, h.key, h.none, h.deliv, h.got⟩
      exact h'.plain rfl (fun _ hf => by cases hf) (fun _ _ _ _ _ hf => by cases hf)
    · unfold receive
      split
      · rw [h.enable]
        split <;> exact h
      · split
        · exact h.ended
        · exact h.connect
      · rename_i source id data len fd _
        refine ⟨h.ro, h.key, ?_, ?_, ?_⟩
        · simp [emit, h.none, Ev.sends]
        · refine All.snoc (h.deliv.snoc ⟨fun _ _ _ _ _ hf => absurd hf (h.got _ _ _ _ _), fun f hf => by cases hf⟩) ⟨fun _ _ _ _ _ _ => ⟨_, rfl⟩, ?_⟩
          intro f hx
          injection hx with hx
          subst hx
          exact ⟨source, id, data, len, fd, List.getLast?_concat .., decode_holds ..⟩
        · intro _ _ _ _ _ hl
          simp only [emit, List.getLast?_concat] at hl
          cases hl

theorem reading_run (bus : Int) (target : Nat) (r : Io) (steps : List Step) : Reading (run bus target true r steps) := by
  have h0 : Reading (start bus target true r) := by
    have h : Reading (connect { appBus := bus - 1, bus := bus - 1, target, readonly := true }) :=
      Reading.connect ⟨rfl, rfl, rfl, All.nil, fun _ _ _ _ _ h => by cases h⟩
    unfold start
    rw [h.enable]
    exact h
  unfold run
  generalize start bus target true r = s at h0
  induction steps generalizing s with
  | nil => exact h0
  | cons st steps ih =>
    refine ih _ ?_
    cases st with
    | send f => exact h0.put _
    | setBus n =>
      show Reading (if n ≤ 0 then emit .badBus s else put (.bus (n - 1)) { s with appBus := n - 1 })
      split
      · exact h0.plain rfl (fun _ hf => by cases hf) (fun _ _ _ _ _ hf => by cases hf)
      · exact Reading.put (s := { s with appBus := n - 1 }) ⟨h0.ro, h0.key, h0.none, h0.deliv, h0.got⟩ _
    | setFilter ids => exact h0.put _
    | setKey k => exact h0.put _
    | io r =>
      show Reading (if s.alive then Mavcan.io r s else s)
      split
      · exact h0.io r
      · exact h0

/-! ## C94: transmission -/

/-- The items of the queue are taken in order, each once. -/
theorem C94_order (bus : Int) (target : Nat) (r : Io) (steps : List Step) :
    let s := run bus target false r steps
    acceptedOf s.trace = takenOf s.trace ++ s.queue := (inv_run bus target r steps).queue

/-- Every frame taken is handed to the connection at once and once: for the bus selected last before it, addressed to the system known,
and signed with the key set last before it. -/
theorem C94_sent (bus : Int) (target : Nat) (r : Io) (steps : List Step) :
    let s := run bus target false r steps
    All (SentRight (bus - 1) target) s.trace ∧ ∀ f, s.trace.getLast? ≠ some (.taken (.frame f)) :=
  ⟨(inv_run bus target r steps).good.sent, (inv_run bus target r steps).settled.frame⟩

/-- A driver that receives such a message makes the same frame of it. -/
theorem C94_received (bus : Int) (f : CANFrame) (hv : Valid f) (m : Msg) (hc : Carries bus f m) :
    0 ≤ m.id ∧ m.id < 2 ^ 32 ∧ m.len < 256 ∧ ∀ g, Holds m.id.toNat m.data m.len m.canfd g → g = f := received_back bus f hv m hc

/-- As long as it is not to end, the process takes an item from the queue in every step until the queue is empty. -/
theorem C94_progress (r : Io) (s : State) (h : s.alive = true) (hq : r.quit = false) :
    (step s (.io r)).queue = s.queue.tail := by
  have he : ∀ s : State, (enable r s).queue = s.queue := by
    intro s
    unfold enable announce
    split
    · rfl
    · split
      · rfl
      · split <;> rfl
  simp only [step, h, if_true, io, hq, Bool.false_eq_true, if_false]
  cases hs : s.queue with
  | nil =>
    simp only [receive]
    split
    · split
      · rw [he, hs]
        rfl
      · rw [hs]
        rfl
    · split
      · exact hs
      · unfold connect
        split <;> exact hs
    · exact hs
  | cons i rest =>
    simp only [handle, List.tail_cons]
    split
    · rfl
    · split
      · rfl
      · rfl
      · rfl
      · split
        · rw [he]
          rfl
        · rfl

/-- A frame is accepted whenever fewer than 1000 items are waiting, and refused otherwise. -/
theorem C94_capacity (f : CANFrame) (s : State) :
    (step s (.send f)).trace = s.trace ++ [if s.queue.length < 1000 then .accepted (.frame f) else .refused (.frame f)] := by
  by_cases h : s.queue.length < 1000
  · have h' : s.queue.length < queueSize := h
    simp only [step, put, if_pos h, if_pos h']
  · have h' : ¬ s.queue.length < queueSize := h
    simp only [step, put, if_neg h, if_neg h', emit]

/-- Nothing is ever sent to a log file. -/
theorem C94_readonly (bus : Int) (target : Nat) (r : Io) (steps : List Step) : (run bus target true r steps).trace.any Ev.sends = false :=
  (reading_run bus target r steps).none

/-- `get_bus` is right, if no call of `set_bus` was refused. -/
def Told (b : Int) (s : State) : Prop := (∀ n, .refused (.bus n) ∉ s.trace) → s.appBus = busAfter b (acceptedOf s.trace)

theorem Told.emit {b : Int} {s : State} (h : Told b s) {x : Ev} (hx : acceptedOf [x] = []) : Told b (emit x s) := by
  intro hn
  simp only [Mavcan.emit, acceptedOf_snoc, hx, List.append_nil]
  exact h fun n hm => hn n (List.mem_append_left _ hm)

theorem Told.enable {b : Int} {s : State} (h : Told b s) (r : Io) : Told b (enable r s) := by
  unfold Mavcan.enable announce
  split
  · exact h
  · split
    · exact Told.emit (s := { s with
        lastEnable := r.now + r.later
        alive := false }) h rfl
    · have h' : Told b { s with lastEnable := r.now + r.later } := h
      split
      · exact h'.emit rfl
      · exact (h'.emit rfl).emit rfl

theorem Told.connect {b : Int} {s : State} (h : Told b s) : Told b (connect s) := by
  unfold Mavcan.connect
  split
  · exact h.emit rfl
  · exact (h.emit rfl).emit rfl

theorem Told.put {b : Int} {s : State} (h : Told b s) (i : Item) (hi : ∀ b, busAfter b [i] = b) : Told b (put i s) := by
  unfold Mavcan.put
  split
  · intro hn
    simp only [acceptedOf_snoc, busAfter_append]
    rw [← h fun n hm => hn n (List.mem_append_left _ hm)]
    exact (hi _).symm
  · exact h.emit rfl

theorem Told.io {b : Int} {s : State} (h : Told b s) (r : Io) : Told b (io r s) := by
  have he : Told b (Mavcan.emit .ended { s with alive := false }) := Told.emit (s := { s with alive := false }) h rfl
  unfold Mavcan.io
  split
  · exact he
  · split
    · rename_i i rest _
      have h1 : Told b (Mavcan.emit (.taken i) { s with queue := rest }) := Told.emit (s := { s with queue := rest }) h rfl
      unfold handle
      split
      · exact h1
      · split
        · exact h1
        · exact h1
        · rename_i k _ _
          exact Told.emit (s := { (Mavcan.emit (.taken (.key k)) { s with queue := rest }) with key := some k }) h1 rfl
        · dsimp only
          split
          · exact (h1.emit rfl).enable r
          · exact h1.emit rfl
    · unfold receive
      split
      · split
        · exact h.enable r
        · exact h
      · split
        · exact he
        · exact h.connect
      · rename_i source id data len fd _
        have h1 : Told b (Mavcan.emit (.got source id data len fd) s) := h.emit rfl
        exact Told.emit (s := { (Mavcan.emit (.got source id data len fd) s) with target := if s.target = 0 then source else s.target }) h1 rfl

/-- The bus in the constructor or in the last call of `set_bus` that was accepted, as long as the queue was not full in a call of `set_bus`, is what `get_bus`
tells. -/
theorem C94_get_bus (bus : Int) (target : Nat) (ro : Bool) (r : Io) (steps : List Step) :
    let s := run bus target ro r steps
    (∀ n, .refused (.bus n) ∉ s.trace) → getBus s = busAfter (bus - 1) (acceptedOf s.trace) + 1 := by
  intro s hr
  suffices h : Told (bus - 1) s by
    show s.appBus + 1 = _
    rw [h hr]
  have h0 : Told (bus - 1) (start bus target ro r) := Told.enable (Told.connect fun _ => rfl) r
  show Told (bus - 1) (steps.foldl step (start bus target ro r))
  clear hr
  clear s
  generalize start bus target ro r = s at h0
  induction steps generalizing s with
  | nil => exact h0
  | cons st steps ih =>
    refine ih _ ?_
    cases st with
    | send f => exact h0.put _ fun _ => rfl
    | setFilter ids => exact h0.put _ fun _ => rfl
    | setKey k => exact h0.put _ fun _ => rfl
    | setBus n =>
      show Told (bus - 1) (if n ≤ 0 then emit .badBus s else put (.bus (n - 1)) { s with appBus := n - 1 })
      split
      · exact h0.emit rfl
      · unfold put
        split
        · intro hn
          simp only [acceptedOf_snoc, busAfter_append]
          rfl
        · intro hn
          exact absurd (List.mem_append_right _ List.mem_cons_self) (hn (n - 1))
    | io r =>
      show Told (bus - 1) (if s.alive then Mavcan.io r s else s)
      split
      · exact h0.io r
      · exact h0

/-! ## C95: reception -/

/-- Every message received is delivered at once, as the frame it holds, and nothing else is delivered; this also holds for log files. -/
theorem C95_delivered (bus : Int) (target : Nat) (ro : Bool) (r : Io) (steps : List Step) :
    let s := run bus target ro r steps
    All DeliveredRight s.trace ∧ ∀ src id data len fd, s.trace.getLast? ≠ some (.got src id data len fd) := by
  cases ro with
  | false => exact ⟨(inv_run bus target r steps).good.deliv, (inv_run bus target r steps).settled.got⟩
  | true => exact ⟨(reading_run bus target r steps).deliv, (reading_run bus target r steps).got⟩

/-! ## C96: forwarding is renewed -/

/-- When forwarding was requested. -/
def forwardsOf (t : List Ev) : List Int := t.filterMap fun
  | .forward n _ _ => some n
  | _ => none

/-- The loop runs freely: no step takes longer than 10 ms, nothing ends the process. -/
def Steady (t : Int) : List Step → Prop
  | [] => True
  | .io r :: l => r.quit = false ∧ r.forwardRaises = false ∧ t ≤ r.now ∧ r.now + r.later ≤ t + 10000 ∧ Steady (r.now + r.later) l
  | _ :: l => Steady t l

/-- The time when the last step has ended. -/
def clock (t : Int) : List Step → Int
  | [] => t
  | .io r :: l => clock (r.now + r.later) l
  | _ :: l => clock t l

/-- While the loop runs freely, forwarding has been requested within the last second, give or take. -/
def C96_statement : Prop := ∃ slack : Int, ∀ (bus : Int) (target : Nat) (r : Io) (steps : List Step), r.forwardRaises = false →
  Steady (r.now + r.later) steps → (run bus target false r steps).alive = true →
  ∃ t ∈ forwardsOf (run bus target false r steps).trace, clock (r.now + r.later) steps - second - slack ≤ t

/-- Messages that keep arriving, one every 10 ms. -/
def stream (n : Nat) : List Step := (List.range n).map fun (i : Nat) => .io { now := 10000 * (i + 1), recv := .message 1 0x80000001 [1] 1 false }

theorem stream_succ (n : Nat) : stream (n + 1) = stream n ++ [.io { now := 10000 * (n + 1), recv := .message 1 0x80000001 [1] 1 false }] := by
  simp [stream, List.range_succ]

theorem steady_append (t : Int) (a b : List Step) : Steady t (a ++ b) ↔ Steady t a ∧ Steady (clock t a) b := by
  induction a generalizing t with
  | nil => simp [Steady, clock]
  | cons x a ih =>
    cases x <;> simp only [List.cons_append, Steady, clock, ih, and_assoc]

theorem clock_append (t : Int) (a b : List Step) : clock t (a ++ b) = clock (clock t a) b := by
  induction a generalizing t with
  | nil => rfl
  | cons x a ih => cases x <;> exact ih _

theorem stream_steady (n : Nat) : Steady 0 (stream n) ∧ clock 0 (stream n) = 10000 * n := by
  induction n with
  | zero => exact ⟨trivial, rfl⟩
  | succ n ih =>
    rw [stream_succ, steady_append, clock_append, ih.2]
    refine ⟨⟨ih.1, rfl, rfl, ?_, ?_, trivial⟩, ?_⟩
    · show (10000 * n : Int) ≤ 10000 * (n + 1)
      omega
    · show (10000 * (n + 1) : Int) + (0 : Nat) ≤ 10000 * n + 10000
      omega
    · show (10000 * (n + 1) : Int) + (0 : Nat) = 10000 * ((n + 1 : Nat) : Int)
      omega

/-- While messages keep arriving nothing is sent. -/
theorem stream_silent (n : Nat) (s : State) (ha : s.alive = true) (hq : s.queue = []) :
    ((stream n).foldl step s).alive = true ∧ ((stream n).foldl step s).queue = [] ∧
      ((stream n).foldl step s).trace.filter Ev.sends = s.trace.filter Ev.sends := by
  induction n with
  | zero =>
    rw [show stream 0 = [] from rfl]
    exact ⟨ha, hq, rfl⟩
  | succ n ih =>
    rw [stream_succ, List.foldl_append]
    generalize (stream n).foldl step s = s1 at ih
    obtain ⟨h1, h2, h3⟩ := ih
    simp only [List.foldl, step, h1, if_true, io, Bool.false_eq_true, if_false, h2, receive, emit]
    refine ⟨trivial, trivial, ?_⟩
    rw [List.filter_append, List.filter_append, h3]
    simp [Ev.sends]

theorem forwardsOf_sends (t : List Ev) : forwardsOf t = forwardsOf (t.filter Ev.sends) := by
  unfold forwardsOf
  rw [List.filterMap_filter]
  congr 1
  funext x
  cases x <;> rfl

/-- The property does not hold: the clock is not looked at when a message has arrived (mavcan.py:178-192), so while messages keep arriving (and no frames
are sent) forwarding is never requested again. -/
theorem C96_counterexample : ¬ C96_statement := by
  rintro ⟨slack, h⟩
  let n := 101 + slack.toNat
  obtain ⟨h1, h2⟩ := stream_steady n
  obtain ⟨h3, -, h4⟩ := stream_silent n (start 1 0 false {}) (by decide) (by decide)
  obtain ⟨t, ht, hle⟩ := h 1 0 {} (stream n) rfl h1 h3
  rw [forwardsOf_sends] at ht
  unfold run at ht
  rw [h4] at ht
  have h5 : forwardsOf ((start 1 0 false {}).trace.filter Ev.sends) = [0] := by decide
  rw [h5, List.mem_singleton] at ht
  subst ht
  have h6 : clock (({} : Io).now + ({} : Io).later) (stream n) = 10000 * n := h2
  rw [h6] at hle
  unfold second at hle
  omega

/-- For the same reason a change of the bus may never take effect: while messages keep arriving from the old bus, forwarding of the new one is not requested. -/
theorem C96_switch_counterexample (n : Nat) :
    let steps := .setBus 2 :: .io {} :: stream n
    let s := run 1 0 false {} steps
    Steady 0 steps ∧ s.alive = true ∧ clock 0 steps = 10000 * n ∧ busAfter 0 (takenOf s.trace) = 1 ∧ ∀ t tg, .forward t tg 2 ∉ s.trace := by
  obtain ⟨h1, h2⟩ := stream_steady n
  obtain ⟨h3, -, h4⟩ := stream_silent n (run 1 0 false {} [.setBus 2, .io {}]) (by decide) (by decide)
  have he : run 1 0 false {} (.setBus 2 :: .io {} :: stream n) = (stream n).foldl step (run 1 0 false {} [.setBus 2, .io {}]) := rfl
  refine ⟨⟨rfl, rfl, by decide, by decide, h1⟩, h3, h2, ?_, ?_⟩
  · have hb : ∀ n, (run 1 0 false {} (.setBus 2 :: .io {} :: stream n)).bus = 1 := by
      intro n
      induction n with
      | zero =>
        rw [show stream 0 = [] from rfl]
        decide
      | succ n ih =>
        obtain ⟨h3, h5, -⟩ := stream_silent n (run 1 0 false {} [.setBus 2, .io {}]) (by decide) (by decide)
        have he : run 1 0 false {} (.setBus 2 :: .io {} :: stream n) = (stream n).foldl step (run 1 0 false {} [.setBus 2, .io {}]) := rfl
        rw [he] at ih
        show ((stream (n + 1)).foldl step (run 1 0 false {} [.setBus 2, .io {}])).bus = 1
        rw [stream_succ, List.foldl_append]
        generalize (stream n).foldl step (run 1 0 false {} [.setBus 2, .io {}]) = s1 at *
        simp only [List.foldl, step, h3, if_true, io, Bool.false_eq_true, if_false, h5, receive, emit]
        exact ih
    have := (inv_run 1 0 {} (.setBus 2 :: .io {} :: stream n)).bus
    rw [hb] at this
    exact this.symm
  · intro t tg hm
    have h5 : Ev.forward t tg 2 ∈ (run 1 0 false {} (.setBus 2 :: .io {} :: stream n)).trace.filter Ev.sends := List.mem_filter.2 ⟨hm, rfl⟩
    rw [he, h4] at h5
    have h6 : (run 1 0 false {} [.setBus 2, .io {}]).trace.filter Ev.sends = [.forward 0 0 1] := by decide
    rw [h6, List.mem_singleton] at h5
    cases h5

structure Stamped (s : State) : Prop where
  rw : s.readonly = false
  rate : (forwardsOf s.trace).Pairwise fun a b => a + second < b
  last : s.alive = true → (forwardsOf s.trace).getLast? = some s.lastEnable
  max : ∀ t ∈ forwardsOf s.trace, t ≤ s.lastEnable

theorem forwardsOf_snoc (t : List Ev) (x : Ev) : forwardsOf (t ++ [x]) = forwardsOf t ++ forwardsOf [x] := List.filterMap_append

theorem Stamped.emit {s : State} (h : Stamped s) {x : Ev} (hx : forwardsOf [x] = []) : Stamped (emit x s) := by
  refine ⟨h.rw, ?_, ?_, ?_⟩ <;> simp only [Mavcan.emit, forwardsOf_snoc, hx, List.append_nil]
  · exact h.rate
  · exact h.last
  · exact h.max

theorem Stamped.enable {s : State} (h : Stamped s) (r : Io) (ht : r.now - s.lastEnable > second) : Stamped (enable r s) := by
  unfold Mavcan.enable
  rw [if_neg (by rw [h.rw]; decide)]
  have hle : s.lastEnable ≤ r.now + r.later := by
    unfold second at ht
    omega
  split
  · refine Stamped.emit (s := { s with
      lastEnable := r.now + r.later
      alive := false }) ?_ rfl
    exact ⟨h.rw, h.rate, (by intro hf; cases hf), fun t hm => Int.le_trans (h.max t hm) hle⟩
  · have h1 : Stamped (Mavcan.emit (.forward (r.now + r.later) s.target (s.bus + 1)) { s with lastEnable := r.now + r.later }) := by
      have hf : forwardsOf (s.trace ++ [.forward (r.now + r.later) s.target (s.bus + 1)]) = forwardsOf s.trace ++ [r.now + r.later] :=
        forwardsOf_snoc _ _
      refine ⟨h.rw, ?_, ?_, ?_⟩ <;> simp only [Mavcan.emit, hf]
      · rw [List.pairwise_append]
        refine ⟨h.rate, List.pairwise_singleton _ _, ?_⟩
        intro a ha b hb
        rw [List.mem_singleton] at hb
        have := h.max a ha
        omega
      · intro _
        exact List.getLast?_concat ..
      · intro t hm
        rcases List.mem_append.1 hm with hm | hm
        · exact Int.le_trans (h.max t hm) hle
        · rw [List.mem_singleton] at hm
          omega
    unfold announce
    dsimp only
    split
    · exact h1
    · exact h1.emit rfl

theorem Stamped.connect {s : State} (h : Stamped s) : Stamped (connect s) := by
  unfold Mavcan.connect
  split
  · exact h.emit rfl
  · exact (h.emit rfl).emit rfl

theorem Stamped.put {s : State} (h : Stamped s) (i : Item) : Stamped (put i s) := by
  unfold Mavcan.put
  split
  · exact Stamped.emit (s := { s with queue := s.queue ++ [i] }) ⟨h.rw, h.rate, h.last, h.max⟩ rfl
  · exact h.emit rfl

theorem Stamped.io {s : State} (h : Stamped s) (r : Io) : Stamped (io r s) := by
  have he : Stamped (Mavcan.emit .ended { s with alive := false }) :=
    Stamped.emit (s := { s with alive := false }) ⟨h.rw, h.rate, (by intro hf; cases hf), h.max⟩ rfl
  unfold Mavcan.io
  split
  · exact he
  · split
    · rename_i i rest _
      have h1 : Stamped (Mavcan.emit (.taken i) { s with queue := rest }) :=
        Stamped.emit (s := { s with queue := rest }) ⟨h.rw, h.rate, h.last, h.max⟩ rfl
      unfold handle
      split
      · exact h1
      · split
        · exact ⟨h1.rw, h1.rate, h1.last, h1.max⟩
        · exact ⟨h1.rw, h1.rate, h1.last, h1.max⟩
        · rename_i k _ _
          exact Stamped.emit (s := { (Mavcan.emit (.taken (.key k)) { s with queue := rest }) with key := some k })
            ⟨h1.rw, h1.rate, h1.last, h1.max⟩ rfl
        · dsimp only
          split
          · rename_i ht
            exact (h1.emit rfl).enable r ht
          · exact h1.emit rfl
    · unfold receive
      split
      · split
        · rename_i ht
          exact h.enable r ht
        · exact h
      · split
        · exact he
        · exact h.connect
      · rename_i source id data len fd _
        have h1 : Stamped (Mavcan.emit (.got source id data len fd) s) := h.emit rfl
        exact Stamped.emit (s := { (Mavcan.emit (.got source id data len fd) s) with target := if s.target = 0 then source else s.target })
          ⟨h1.rw, h1.rate, h1.last, h1.max⟩ rfl

theorem stamped_run (bus : Int) (target : Nat) (r : Io) (steps : List Step) (hr : r.forwardRaises = false) : Stamped (run bus target false r steps) := by
  have h0 : Stamped (start bus target false r) := by
    unfold start enable Mavcan.connect announce
    simp only [emit, hr, Bool.false_eq_true, if_false, List.nil_append]
    refine ⟨rfl, ?_, ?_, ?_⟩ <;> simp [forwardsOf]
  unfold run
  generalize start bus target false r = s at h0
  induction steps generalizing s with
  | nil => exact h0
  | cons st steps ih =>
    refine ih _ ?_
    cases st with
    | send f => exact h0.put _
    | setBus n =>
      show Stamped (if n ≤ 0 then emit .badBus s else put (.bus (n - 1)) { s with appBus := n - 1 })
      split
      · exact h0.emit rfl
      · exact Stamped.put (s := { s with appBus := n - 1 }) ⟨h0.rw, h0.rate, h0.last, h0.max⟩ _
    | setFilter ids => exact h0.put _
    | setKey k => exact h0.put _
    | io r =>
      show Stamped (if s.alive then Mavcan.io r s else s)
      split
      · exact h0.io r
      · exact h0

/-- Forwarding is not requested more often than once a second. -/
theorem C96_rate_partial (bus : Int) (target : Nat) (r : Io) (steps : List Step) (hr : r.forwardRaises = false) :
    (forwardsOf (run bus target false r steps).trace).Pairwise fun a b => a + second < b := (stamped_run bus target r steps hr).rate

/-- The step sends a frame, or waits for a message in vain. -/
def Looks (r : Io) (s : State) : Prop := (∃ f rest, s.queue = .frame f :: rest) ∨ (s.queue = [] ∧ r.recv = .nothing)

/-- Whenever a frame has been sent and whenever no message has arrived, forwarding has been requested within the last second - as long as
the process goes on. -/
theorem C96_renewed_partial (bus : Int) (target : Nat) (r0 : Io) (steps : List Step) (hr : r0.forwardRaises = false) (r : Io)
    (hl : Looks r (run bus target false r0 steps)) (ha : (run bus target false r0 steps).alive = true)
    (ha' : (run bus target false r0 (steps ++ [.io r])).alive = true) :
    ∃ t ∈ forwardsOf (run bus target false r0 (steps ++ [.io r])).trace, r.now - second ≤ t := by
  have hs := stamped_run bus target r0 (steps ++ [.io r]) hr
  have hm : (run bus target false r0 (steps ++ [.io r])).lastEnable ∈ forwardsOf (run bus target false r0 (steps ++ [.io r])).trace :=
    List.mem_of_getLast? (hs.last ha')
  refine ⟨_, hm, ?_⟩
  clear hm hs
  have hrw := (stamped_run bus target r0 steps hr).rw
  have he : run bus target false r0 (steps ++ [.io r]) = io r (run bus target false r0 steps) := by
    unfold run at ha ⊢
    rw [List.foldl_append]
    simp [step, ha]
  rw [he] at ha' ⊢
  generalize run bus target false r0 steps = s at *
  clear he
  have hq : r.quit = false := by
    cases hq : r.quit with
    | false => rfl
    | true =>
      simp [io, hq, emit] at ha'
  have hen : ∀ s1 : State, s1.readonly = false → (enable r s1).lastEnable = r.now + r.later := by
    intro s1 h1
    unfold enable announce emit
    rw [if_neg (by rw [h1]; decide)]
    split
    · rfl
    · split <;> rfl
  rcases hl with ⟨f, rest, hf⟩ | ⟨hf, hn⟩
  · simp only [io, hq, hf, handle, Bool.false_eq_true, if_false]
    rw [if_neg (show ¬ (emit (.taken (.frame f)) { s with queue := rest }).readonly = true by show ¬ s.readonly = true; rw [hrw]; decide)]
    split
    · rw [hen _ (by exact hrw)]
      unfold second
      omega
    · rename_i h
      have : ¬ r.now - s.lastEnable > second := h
      show r.now - second ≤ s.lastEnable
      omega
  · simp only [io, hq, hf, receive, hn, Bool.false_eq_true, if_false]
    split
    · rw [hen _ hrw]
      unfold second
      omega
    · omega

/-- Requests name the bus selected last and go to the system known. -/
theorem C96_bus_partial (bus : Int) (target : Nat) (r : Io) (steps : List Step) (pre post : List Ev) (t : Int) (tg : Nat) (b : Int)
    (h : (run bus target false r steps).trace = pre ++ .forward t tg b :: post) :
    tg = targetAfter target pre ∧ b = busAfter (bus - 1) (takenOf pre) + 1 :=
  ((inv_run bus target r steps).good.fwd pre _ post h).1 t tg b rfl

/-! ## C97: the filter list -/

/-- Whenever forwarding is requested and a filter list has been set, exactly the identifiers of the list set last are requested. -/
def C97_statement : Prop := ∀ (bus : Int) (target : Nat) (r : Io) (steps : List Step) (pre post : List Ev) (t : Int) (tg : Nat) (b : Int) (l : List Nat),
  (run bus target false r steps).trace = pre ++ .forward t tg b :: post → filterAfter none (takenOf pre) = some l →
  ∃ num ids post', post = .filtered tg b num ids :: post' ∧ (ids.take num).Perm l

/-- What holds: the first 16 identifiers are requested, in order, in a message of 16 numbers. -/
theorem C97_filter_partial (bus : Int) (target : Nat) (r : Io) (steps : List Step) (pre post : List Ev) (t : Int) (tg : Nat) (b : Int) (l : List Nat)
    (h : (run bus target false r steps).trace = pre ++ .forward t tg b :: post) (hf : filterAfter none (takenOf pre) = some l) :
    ∃ num ids post', post = .filtered tg b num ids :: post' ∧ ids.length = 16 ∧ num = min 16 l.length ∧
      (ids.take num).Perm (l.take 16) ∧ (ids.take num).Pairwise (· ≤ ·) := by
  have hi := inv_run bus target r steps
  have hk : takenOf (pre ++ [.forward t tg b]) = takenOf pre := by
    rw [takenOf_snoc]
    exact List.append_nil _
  cases post with
  | nil =>
    have := hi.settled.forward t tg b (by rw [h]; exact List.getLast?_concat ..)
    rw [h, hk, hf] at this
    cases this
  | cons x post' =>
    have h' : (run bus target false r steps).trace = (pre ++ [.forward t tg b]) ++ x :: post' := by
      rw [h]
      simp
    obtain ⟨-, h2, h3⟩ := hi.good.fwd _ _ _ h'
    obtain ⟨num, ids, rfl⟩ := h2 t tg b (List.getLast?_concat ..) (by rw [hk, hf]; exact fun h => by cases h)
    obtain ⟨t', l', -, e2, e3, e4, e5, e6⟩ := h3 tg b num ids rfl
    rw [hk, hf] at e2
    injection e2 with e2
    subst e2
    exact ⟨num, ids, post', rfl, e3, e4, e5, e6⟩

/-- With at most 16 identifiers the property holds. -/
theorem C97_partial (bus : Int) (target : Nat) (r : Io) (steps : List Step) (pre post : List Ev) (t : Int) (tg : Nat) (b : Int) (l : List Nat)
    (h : (run bus target false r steps).trace = pre ++ .forward t tg b :: post) (hf : filterAfter none (takenOf pre) = some l) (hl : l.length ≤ 16) :
    ∃ num ids post', post = .filtered tg b num ids :: post' ∧ (ids.take num).Perm l := by
  obtain ⟨num, ids, post', h1, -, -, h2, -⟩ := C97_filter_partial bus target r steps pre post t tg b l h hf
  rw [List.take_of_length_le hl] at h2
  exact ⟨num, ids, post', h1, h2⟩

/-- A list of 17 identifiers, and a second later. -/
def filterSteps : List Step := [.setFilter (some (List.range 17)), .io {}, .io { now := 1000001 }]

/-- The property does not hold: the list is cut off after 16 identifiers (mavcan.py:95), without a warning. -/
theorem C97_counterexample : ¬ C97_statement := by
  intro h
  obtain ⟨num, ids, post', h1, h2⟩ := h 1 0 {} filterSteps
    ((run 1 0 false {} filterSteps).trace.take 4) ((run 1 0 false {} filterSteps).trace.drop 5) 1000001 0 1 (List.range 17) (by decide +kernel)
    (by decide +kernel)
  have h3 : (run 1 0 false {} filterSteps).trace.drop 5 = [.filtered 0 1 16 (List.range 16)] := by decide +kernel
  rw [h3] at h1
  injection h1 with h1 _
  injection h1 with _ _ h4 h5
  subst h4 h5
  have := h2.length_eq
  simp at this

/-! ## Examples -/

/-- Two frames, the bus changed between them, a signing key set, a message received from system 7. -/
def demoSteps : List Step :=
  [.send ⟨0x123, [1, 2], true, false⟩, .setKey [9], .setBus 2, .send ⟨5, [3], false, true⟩, .io {}, .io {}, .io { recv := .message 7 0x80000042 [1, 2, 3, 0, 0, 0, 0, 0] 3 false },
   .io {}, .io { recv := .message 7 0x80000042 [1, 2, 3, 0, 0, 0, 0, 0] 3 false }, .io { recv := .error false }, .io { now := 2000000 }]

example : (run 1 0 false {} demoSteps).trace.filter (fun x => x.sends || x == .connected || x == .delivered ⟨0x42, [1, 2, 3], true, false⟩) =
    [.connected, .forward 0 0 1, .out false 0 ⟨0, 2, 0x80000123, [1, 2, 0, 0, 0, 0, 0, 0], false⟩, .signed [9],
     .out false 0 ⟨1, 1, 5, 3 :: List.replicate 63 0, true⟩, .delivered ⟨0x42, [1, 2, 3], true, false⟩, .connected, .signed [9],
     .forward 2000000 7 2] := by decide +kernel

example : Valid ⟨0x123, [1, 2], true, false⟩ := ⟨by decide, by decide, by decide⟩

end Mavcan
end Dronecan
