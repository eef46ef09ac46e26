import Verif.GpuP2p

/-!
# Point-to-point reshapes on devices: the order of the operations
-/

namespace Verif
variable {α : Type} {I O : Nat → Box} {W : Nat → Int} {jobs : List Job} {link : Nat → Nat → Prop} {own : Nat → Prop}
  {S R e : Nat → Nat → Int} {mid : Nat → Int} {c : P2p}

/-! ## Sublists -/

theorem pair_sublist {β : Type} {x y : β} {l l' : List β} (hx : x ∈ l) (hy : y ∈ l') : [x, y].Sublist (l ++ l') :=
  (List.singleton_sublist.2 hx).append (List.singleton_sublist.2 hy)

theorem two_sublist {β : Type} {x y : β} : ∀ {l : List β}, x ∈ l → y ∈ l → x ≠ y → [x, y].Sublist l ∨ [y, x].Sublist l
  | a :: l, hx0, hy, hne => by
    rcases List.mem_cons.1 hx0 with rfl | hx
    · rcases List.mem_cons.1 hy with rfl | hy
      · exact absurd rfl hne
      · exact Or.inl (.cons_cons _ (List.singleton_sublist.2 hy))
    · clear hx0
      rcases List.mem_cons.1 hy with rfl | hy
      · exact Or.inr (.cons_cons _ (List.singleton_sublist.2 hx))
      · exact (two_sublist hx hy hne).imp (.cons _) (.cons _)

theorem flatMap_sublist_of_mem {β γ : Type} {f : β → List γ} {l : List β} {i : β} (h : i ∈ l) : (f i).Sublist (l.flatMap f) := by
  obtain ⟨a, b, rfl⟩ := List.append_of_mem h
  rw [List.flatMap_append, List.flatMap_cons]
  exact (List.sublist_append_left _ _).trans (List.sublist_append_right _ _)

theorem pair_flatMap_sublist {β γ : Type} {f : β → List γ} {l : List β} {i k : β} (h : [i, k].Sublist l) :
    (f i ++ f k).Sublist (l.flatMap f) := by
  have := h.flatMap f
  simpa using this

theorem range_pair {n i k : Nat} (hik : i < k) (hk : k < n) : [i, k].Sublist (List.range n) := by
  rcases two_sublist (l := List.range n) (x := i) (y := k) (by simp; omega) (by simp; omega) (by omega) with h | h
  · exact h
  · have := List.pairwise_iff_forall_sublist.1 List.pairwise_lt_range h
    omega

/-- Two blocks of a loop. -/
theorem range_flatMap_sublist {γ : Type} {f : Nat → List γ} {n i k : Nat} (hik : i < k) (hk : k < n) :
    (f i ++ f k).Sublist ((List.range n).flatMap f) := pair_flatMap_sublist (range_pair hik hk)

theorem idxOf_pairwise {l : List Nat} (h : l.Nodup) : l.Pairwise fun a b => l.idxOf a < l.idxOf b := by
  rw [List.pairwise_iff_getElem]
  intro i j hi hj hij
  rw [h.idxOf_getElem, h.idxOf_getElem]
  exact hij

/-! ## The program -/

/-- The sending loop. -/
def P2p.sendPart (c : P2p) (r : Nat) : List (HostInstr P2pOp) := (List.range (c.sends r).length).flatMap (c.sendBlock r)

/-- The receiving loop. -/
def P2p.recvPart (c : P2p) (r : Nat) : List (HostInstr P2pOp) := (c.done r).flatMap (c.recvBlock r)

theorem sendPart_sub {r : Nat} (hr : r < c.n) : ([HostInstr.launch (P2pOp.pre r), .sync] ++ c.sendPart r).Sublist (p2pProg c r) := by
  unfold p2pProg
  rw [if_pos hr, List.append_assoc, List.append_assoc, List.append_assoc, List.append_assoc]
  apply List.Sublist.append_left
  refine List.Sublist.trans ?_ (List.sublist_append_right _ _)
  exact List.sublist_append_left _ _

theorem recvPart_sub {r : Nat} (hr : r < c.n) : (c.recvPart r).Sublist (p2pProg c r) := by
  unfold p2pProg
  rw [if_pos hr]
  refine List.Sublist.trans ?_ (List.sublist_append_left _ _)
  exact List.sublist_append_right _ _

/-- `sync` before the call of MPI. -/
theorem sendBlock_sync (hs : c.transport.sound = true) (r i : Nat) : [HostInstr.sync, c.sendInstr r i].Sublist (c.sendBlock r i) := by
  unfold P2p.sendBlock
  cases ht : c.transport with
  | aware => in_prog
  | staged w =>
    rw [ht] at hs
    obtain rfl : w = true := hs
    show [HostInstr.sync, c.sendInstr r i].Sublist [.launch (.pk r i), .launch (.ul r i), .sync, c.sendInstr r i]
    in_prog

theorem sendInstr_starts (r i : Nat) : P2pOp.sd r i ∈ (c.sendInstr r i).starts := by
  unfold P2p.sendInstr
  split <;> simp [HostInstr.starts]

/-- The operations of the stream that belong to the message number `i`. -/
def P2p.sendOp (c : P2p) (r i : Nat) (o : P2pOp) : Prop := o = .pk r i ∨ o = .ul r i ∧ c.transport ≠ .aware

theorem sendBlock_launch (hs : c.transport.sound = true) {r i : Nat} {o : P2pOp} (ho : c.sendOp r i o) :
    [HostInstr.launch o, .sync, c.sendInstr r i].Sublist (c.sendBlock r i) := by
  unfold P2p.sendBlock
  cases ht : c.transport with
  | aware =>
    rcases ho with rfl | ⟨-, h⟩
    · in_prog
    · exact absurd ht h
  | staged w =>
    rw [ht] at hs
    obtain rfl : w = true := hs
    show [HostInstr.launch o, .sync, c.sendInstr r i].Sublist [.launch (.pk r i), .launch (.ul r i), .sync, c.sendInstr r i]
    rcases ho with rfl | ⟨rfl, -⟩
    · in_prog
    · in_prog

/-- Before the start of a send. -/
theorem before_send (hs : c.transport.sound = true) {r i : Nat} (hr : r < c.n) (hi : i < (c.sends r).length) {o : P2pOp}
    (ho : o = .pre r ∨ ∃ k, k ≤ i ∧ c.sendOp r k o) : c.before o (.sd r i) := by
  refine .sync (r := r) (i := c.sendInstr r i) ?_ (sendInstr_starts r i)
  rcases ho with rfl | ⟨k, hk, ho⟩
  · refine List.Sublist.trans ?_ (sendPart_sub hr)
    show ([HostInstr.launch (P2pOp.pre r), .sync] ++ [c.sendInstr r i]).Sublist _
    apply List.Sublist.append_left
    rw [List.singleton_sublist]
    exact (flatMap_sublist_of_mem (List.mem_range.2 hi)).subset ((sendBlock_sync hs r i).subset (by simp))
  · refine List.Sublist.trans ?_ ((List.sublist_append_right _ _).trans (sendPart_sub hr))
    rcases Nat.lt_or_eq_of_le hk with hk | rfl
    · refine List.Sublist.trans ?_ (range_flatMap_sublist hk hi)
      show ([HostInstr.launch o] ++ [.sync, c.sendInstr r i]).Sublist _
      exact (List.singleton_sublist.2 ((sendBlock_launch hs ho).subset (by simp))).append (sendBlock_sync hs r i)
    · exact (sendBlock_launch hs ho).trans (flatMap_sublist_of_mem (List.mem_range.2 hi))

/-- The plain algorithm goes on after the end of the send. -/
theorem after_send (hs : c.transport.sound = true) (hp : c.plined = false) {r i k : Nat} (hr : r < c.n) (hik : i < k)
    (hk : k < (c.sends r).length) {o : P2pOp} (ho : c.sendOp r k o) : c.before (.sd r i) o := by
  have hi : c.sendInstr r i = .call [.sd r i] := by simp [P2p.sendInstr, hp]
  refine .ended (r := r) (i := c.sendInstr r i) (j := .launch o) ?_ (by rw [hi]; simp [HostInstr.ends]) (by simp [HostInstr.starts])
  refine List.Sublist.trans ?_ ((List.sublist_append_right _ _).trans (sendPart_sub hr))
  refine List.Sublist.trans ?_ (range_flatMap_sublist hik hk)
  exact pair_sublist ((sendBlock_sync hs r i).subset (by simp)) ((sendBlock_launch hs ho).subset (by simp))

/-- The receives start after everything that was in the stream. -/
theorem before_recv {r k : Nat} (hr : r < c.n) (hk : k < (c.recvs r).length) : c.before (.pre r) (.rc r k) := by
  refine .sync (r := r) (i := .post (.rc r k)) ?_ (by simp [HostInstr.starts])
  unfold p2pProg
  rw [if_pos hr]
  refine List.Sublist.trans ?_ (List.sublist_append_left _ _)
  refine List.Sublist.trans ?_ (List.sublist_append_left _ _)
  refine List.Sublist.trans ?_ (List.sublist_append_left _ _)
  refine List.Sublist.trans ?_ (List.sublist_append_left _ _)
  show ([HostInstr.launch (P2pOp.pre r), HostInstr.sync] ++ [HostInstr.post (P2pOp.rc r k)]).Sublist _
  apply List.Sublist.append_left
  rw [List.singleton_sublist]
  exact List.mem_map.2 ⟨k, List.mem_range.2 hk, rfl⟩

/-- The operations of the stream that use the received message number `k`. -/
def P2p.recvOp (c : P2p) (r k : Nat) (o : P2pOp) : Prop := o = .un r k ∨ o = .ld r k ∧ c.transport ≠ .aware

theorem recvBlock_launch {r k : Nat} {o : P2pOp} (ho : c.recvOp r k o) :
    [HostInstr.wait (.rc r k), .launch o].Sublist (c.recvBlock r k) := by
  unfold P2p.recvBlock
  cases ht : c.transport with
  | aware =>
    rcases ho with rfl | ⟨-, h⟩
    · in_prog
    · exact absurd ht h
  | staged w =>
    rcases ho with rfl | ⟨rfl, -⟩
    · in_prog
    · in_prog

theorem after_recv {r k : Nat} (hr : r < c.n) (hk : k ∈ c.done r) {o : P2pOp} (ho : c.recvOp r k o) : c.before (.rc r k) o := by
  refine .ended (r := r) (i := .wait (.rc r k)) (j := .launch o) ?_ (by simp [HostInstr.ends]) (by simp [HostInstr.starts])
  exact (recvBlock_launch ho).trans ((flatMap_sublist_of_mem hk).trans (recvPart_sub hr))

/-- The operations that are put in the stream of rank `r`. -/
def P2p.streamOp (c : P2p) (r : Nat) (o : P2pOp) : Prop :=
  o = .pre r ∨ (∃ i, i < (c.sends r).length ∧ c.sendOp r i o) ∨ ((c.objs r).selfToSelf = true ∧ (o = .sp r ∨ o = .su r)) ∨
    ∃ k ∈ c.done r, c.recvOp r k o

theorem launched {r : Nat} (hr : r < c.n) (hs : c.transport.sound = true) {o : P2pOp} (ho : c.streamOp r o) :
    HostInstr.launch o ∈ p2pProg c r := by
  rcases ho with rfl | ⟨i, hi, ho⟩ | ⟨hself, ho⟩ | ⟨k, hk, ho⟩
  · exact (sendPart_sub hr).subset (by simp)
  · refine ((List.sublist_append_right _ _).trans (sendPart_sub hr)).subset ?_
    exact (flatMap_sublist_of_mem (List.mem_range.2 hi)).subset ((sendBlock_launch hs ho).subset (by simp))
  · unfold p2pProg
    rw [if_pos hr, if_pos hself]
    rcases ho with rfl | rfl <;> simp
  · refine (recvPart_sub hr).subset ?_
    exact (flatMap_sublist_of_mem hk).subset ((recvBlock_launch ho).subset (by simp))

theorem stream_pair {r : Nat} (hr : r < c.n) (hs : c.transport.sound = true) {o o' : P2pOp} (ho : c.streamOp r o)
    (ho' : c.streamOp r o') (hne : o ≠ o') : c.before o o' ∨ c.before o' o :=
  (two_sublist (launched hr hs ho) (launched hr hs ho') (fun h => hne (HostInstr.launch.inj h))).imp .stream .stream

/-! ## The reference order -/

/-- Numbers of the operations: the stage, the rank, the number in the stage. -/
def stamp (a r b : Nat) : Nat ×ₗ (Nat ×ₗ Nat) := toLex (a, toLex (r, b))

/-- The number of an operation. -/
def P2p.rankOf (c : P2p) : P2pOp → Nat ×ₗ (Nat ×ₗ Nat)
  | .pre r => stamp 0 r 0
  | .pk r i => stamp 1 r (3 * i)
  | .ul r i => stamp 1 r (3 * i + 1)
  | .sd r i => stamp 1 r (3 * i + 2)
  | .rc r i => stamp 2 r i
  | .sp r => stamp 3 r 0
  | .su r => stamp 3 r 1
  | .ld r k => stamp 4 r (2 * (c.done r).idxOf k)
  | .un r k => stamp 4 r (2 * (c.done r).idxOf k + 1)

/-- What the instruction lets happen before what comes later. -/
def HostInstr.left {E : Type} (i : HostInstr E) (e : E) : Prop := e ∈ i.ends ∨ i = .launch e

theorem lex_lt {a r b a' r' b' : Nat} (h : a < a' ∨ a = a' ∧ (r < r' ∨ r = r' ∧ b < b')) : stamp a r b < stamp a' r' b' :=
  Prod.Lex.toLex_lt_toLex.2 (h.imp id (And.imp id Prod.Lex.toLex_lt_toLex.2))

theorem p2p_order (hd : ∀ r, r < c.n → (c.done r).Nodup) : ∀ o o', c.before o o' → c.rankOf o < c.rankOf o' := by
  apply guarantee_lt
  · intro r
    unfold p2pProg
    by_cases hr : r < c.n
    swap
    · rw [if_neg hr]; exact List.Pairwise.nil
    rw [if_pos hr]
    -- what the parts let happen, and what they start
    have cl : ∀ i ∈ c.sendPart r, ∀ x, i.left x → ∃ u, c.rankOf x = stamp 1 r u := by
      intro i hi x hx
      obtain ⟨k, -, hi⟩ := List.mem_flatMap.1 hi
      have : i = .launch (.pk r k) ∨ i = .launch (.ul r k) ∨ i = .sync ∨ i = .post (.sd r k) ∨ i = .call [.sd r k] := by
        unfold P2p.sendBlock P2p.sendInstr Transport.after at hi
        revert hi
        cases c.transport with
        | aware => cases c.plined <;> simp <;> grind
        | staged w => cases w <;> cases c.plined <;> simp <;> grind
      unfold HostInstr.left at hx
      rcases this with rfl | rfl | rfl | rfl | rfl <;> simp [HostInstr.ends] at hx <;> subst hx <;> exact ⟨_, rfl⟩
    have cs : ∀ i ∈ c.sendPart r, ∀ x ∈ i.starts, ∃ u, c.rankOf x = stamp 1 r u := by
      intro i hi x hx
      obtain ⟨k, -, hi⟩ := List.mem_flatMap.1 hi
      have : i = .launch (.pk r k) ∨ i = .launch (.ul r k) ∨ i = .sync ∨ i = .post (.sd r k) ∨ i = .call [.sd r k] := by
        unfold P2p.sendBlock P2p.sendInstr Transport.after at hi
        revert hi
        cases c.transport with
        | aware => cases c.plined <;> simp <;> grind
        | staged w => cases w <;> cases c.plined <;> simp <;> grind
      rcases this with rfl | rfl | rfl | rfl | rfl <;> simp [HostInstr.starts] at hx <;> subst hx <;> exact ⟨_, rfl⟩
    have es : ∀ i ∈ c.recvPart r, ∀ x ∈ i.starts, ∃ u, c.rankOf x = stamp 4 r u := by
      intro i hi x hx
      obtain ⟨k, -, hi⟩ := List.mem_flatMap.1 hi
      have : i = .wait (.rc r k) ∨ i = .launch (.ld r k) ∨ i = .launch (.un r k) := by
        unfold P2p.recvBlock at hi
        revert hi
        cases c.transport <;> simp <;> grind
      rcases this with rfl | rfl | rfl <;> simp [HostInstr.starts] at hx <;> subst hx <;> exact ⟨_, rfl⟩
    have ds : ∀ i ∈ (if (c.objs r).selfToSelf then [HostInstr.launch (P2pOp.sp r), .launch (.su r)] else []),
        ∃ x u, i = .launch x ∧ c.rankOf x = stamp 3 r u := by
      intro i hi
      split at hi
      · simp at hi
        rcases hi with rfl | rfl
        · exact ⟨_, _, rfl, rfl⟩
        · exact ⟨_, _, rfl, rfl⟩
      · simp at hi
    change (((((_ ++ _) ++ c.sendPart r) ++ _) ++ c.recvPart r) ++ _).Pairwise _
    simp only [List.pairwise_append, List.mem_append]
    refine ⟨⟨⟨⟨⟨?_, ?_, ?_⟩, ?_, ?_⟩, ?_, ?_⟩, ?_, ?_⟩, ?_, ?_⟩
    · simp [HostInstr.starts]
    · rw [List.pairwise_map]
      apply List.pairwise_of_forall
      intro a b x hx
      simp [HostInstr.ends] at hx
    · intro a ha b hb x hx f hf
      simp only [List.mem_cons, List.not_mem_nil, or_false] at ha
      obtain ⟨k, -, rfl⟩ := List.mem_map.1 hb
      simp only [HostInstr.starts, List.mem_singleton] at hf
      subst hf
      rcases ha with rfl | rfl
      · simp [HostInstr.ends] at hx
        subst hx
        exact lex_lt (by omega)
      · simp [HostInstr.ends] at hx
    · -- the sending loop
      unfold P2p.sendPart
      rw [List.pairwise_flatMap]
      constructor
      · intro i _
        unfold P2p.sendBlock P2p.sendInstr Transport.after
        have l1 : c.rankOf (.pk r i) < c.rankOf (.ul r i) := lex_lt (by omega)
        have l2 : c.rankOf (.pk r i) < c.rankOf (.sd r i) := lex_lt (by omega)
        have l3 : c.rankOf (.ul r i) < c.rankOf (.sd r i) := lex_lt (by omega)
        cases c.transport with
        | aware => cases c.plined <;> simp [HostInstr.ends, HostInstr.starts, l2]
        | staged w => cases w <;> cases c.plined <;> simp [HostInstr.ends, HostInstr.starts, l1, l2, l3]
      · apply List.pairwise_lt_range.imp
        intro i k hik a ha b hb x hx f hf
        have h1 : ∃ u, u < 3 ∧ c.rankOf x = stamp 1 r (3 * i + u) := by
          have : a = .launch (.pk r i) ∨ a = .launch (.ul r i) ∨ a = .sync ∨ a = .post (.sd r i) ∨ a = .call [.sd r i] := by
            unfold P2p.sendBlock P2p.sendInstr Transport.after at ha
            revert ha
            cases c.transport with
            | aware => cases c.plined <;> simp <;> grind
            | staged w => cases w <;> cases c.plined <;> simp <;> grind
          rcases this with rfl | rfl | rfl | rfl | rfl <;> simp [HostInstr.ends] at hx <;> subst hx
          · exact ⟨0, by omega, rfl⟩
          · exact ⟨1, by omega, rfl⟩
          · exact ⟨2, by omega, rfl⟩
        have h2 : ∃ u, c.rankOf f = stamp 1 r (3 * k + u) := by
          have : b = .launch (.pk r k) ∨ b = .launch (.ul r k) ∨ b = .sync ∨ b = .post (.sd r k) ∨ b = .call [.sd r k] := by
            unfold P2p.sendBlock P2p.sendInstr Transport.after at hb
            revert hb
            cases c.transport with
            | aware => cases c.plined <;> simp <;> grind
            | staged w => cases w <;> cases c.plined <;> simp <;> grind
          rcases this with rfl | rfl | rfl | rfl | rfl <;> simp [HostInstr.starts] at hf <;> subst hf
          · exact ⟨0, rfl⟩
          · exact ⟨1, rfl⟩
          · exact ⟨2, rfl⟩
          · exact ⟨2, rfl⟩
        obtain ⟨u, hu, h1⟩ := h1
        obtain ⟨v, h2⟩ := h2
        rw [h1, h2]
        exact lex_lt (by omega)
    · rintro a (ha | ha) b hb x hx f hf
      · obtain ⟨u, hu⟩ := cs b hb f hf
        rw [hu]
        simp only [List.mem_cons, List.not_mem_nil, or_false] at ha
        rcases ha with rfl | rfl
        · simp [HostInstr.ends] at hx
          subst hx
          exact lex_lt (by omega)
        · simp [HostInstr.ends] at hx
      · obtain ⟨k, -, rfl⟩ := List.mem_map.1 ha
        simp [HostInstr.ends] at hx
    · -- the own part
      split
      · have : c.rankOf (.sp r) < c.rankOf (.su r) := lex_lt (by omega)
        simp [HostInstr.ends, HostInstr.starts, this]
      · exact List.Pairwise.nil
    · rintro a ((ha | ha) | ha) b hb x hx f hf
      · obtain ⟨y, u, rfl, hy⟩ := ds b hb
        simp only [HostInstr.starts, List.mem_singleton] at hf
        subst hf
        rw [hy]
        simp only [List.mem_cons, List.not_mem_nil, or_false] at ha
        rcases ha with rfl | rfl
        · simp [HostInstr.ends] at hx
          subst hx
          exact lex_lt (by omega)
        · simp [HostInstr.ends] at hx
      · obtain ⟨k, -, rfl⟩ := List.mem_map.1 ha
        simp [HostInstr.ends] at hx
      · obtain ⟨y, u, rfl, hy⟩ := ds b hb
        simp only [HostInstr.starts, List.mem_singleton] at hf
        subst hf
        obtain ⟨v, hv⟩ := cl a ha x hx
        rw [hy, hv]
        exact lex_lt (by omega)
    · -- the receiving loop
      unfold P2p.recvPart
      rw [List.pairwise_flatMap]
      constructor
      · intro k _
        unfold P2p.recvBlock
        have l1 : c.rankOf (.rc r k) < c.rankOf (.ld r k) := lex_lt (by omega)
        have l2 : c.rankOf (.rc r k) < c.rankOf (.un r k) := lex_lt (by omega)
        have l3 : c.rankOf (.ld r k) < c.rankOf (.un r k) := lex_lt (by omega)
        cases c.transport <;> simp [HostInstr.ends, HostInstr.starts, l1, l2, l3]
      · apply (idxOf_pairwise (hd r hr)).imp
        intro i k hik a ha b hb x hx f hf
        have h1 : c.rankOf x = stamp 2 r i ∨ ∃ u, u < 2 ∧ c.rankOf x = stamp 4 r (2 * (c.done r).idxOf i + u) := by
          have : a = .wait (.rc r i) ∨ a = .launch (.ld r i) ∨ a = .launch (.un r i) := by
            unfold P2p.recvBlock at ha
            revert ha
            cases c.transport <;> simp <;> grind
          rcases this with rfl | rfl | rfl <;> simp [HostInstr.ends] at hx <;> subst hx
          · exact Or.inl rfl
          · exact Or.inr ⟨0, by omega, rfl⟩
          · exact Or.inr ⟨1, by omega, rfl⟩
        have h2 : ∃ u, c.rankOf f = stamp 4 r (2 * (c.done r).idxOf k + u) := by
          have : b = .wait (.rc r k) ∨ b = .launch (.ld r k) ∨ b = .launch (.un r k) := by
            unfold P2p.recvBlock at hb
            revert hb
            cases c.transport <;> simp <;> grind
          rcases this with rfl | rfl | rfl <;> simp [HostInstr.starts] at hf <;> subst hf
          · exact ⟨0, rfl⟩
          · exact ⟨1, rfl⟩
        obtain ⟨v, h2⟩ := h2
        rw [h2]
        rcases h1 with h1 | ⟨u, hu, h1⟩
        · rw [h1]; exact lex_lt (by omega)
        · rw [h1]; exact lex_lt (by omega)
    · rintro a (((ha | ha) | ha) | ha) b hb x hx f hf
      · obtain ⟨u, hu⟩ := es b hb f hf
        rw [hu]
        simp only [List.mem_cons, List.not_mem_nil, or_false] at ha
        rcases ha with rfl | rfl
        · simp [HostInstr.ends] at hx
          subst hx
          exact lex_lt (by omega)
        · simp [HostInstr.ends] at hx
      · obtain ⟨k, -, rfl⟩ := List.mem_map.1 ha
        simp [HostInstr.ends] at hx
      · obtain ⟨u, hu⟩ := es b hb f hf
        obtain ⟨v, hv⟩ := cl a ha x hx
        rw [hu, hv]
        exact lex_lt (by omega)
      · obtain ⟨u, hu⟩ := es b hb f hf
        obtain ⟨y, v, rfl, hy⟩ := ds a ha
        simp [HostInstr.ends] at hx
        subst hx
        rw [hu, hy]
        exact lex_lt (by omega)
    · split
      · rw [List.pairwise_map]
        apply List.pairwise_of_forall
        intro a b x _ f hf
        simp [HostInstr.starts] at hf
      · exact List.Pairwise.nil
    · intro a _ b hb x _ f hf
      split at hb
      · obtain ⟨k, -, rfl⟩ := List.mem_map.1 hb
        simp [HostInstr.starts] at hf
      · simp at hb
  · rintro o o' ⟨s, i, r, k, a, b, rfl, rfl, -⟩
    exact lex_lt (by omega)

end Verif
