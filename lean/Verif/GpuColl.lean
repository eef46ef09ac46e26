import Verif.GpuReshape
import Verif.ReshapeRun

/-!
# Collective reshapes on devices: no races, the right result
-/

namespace Verif
variable {α : Type}

/-! ## Lists of moves -/

/-- Perform moves. -/
def runMoves (l : List (Loc × Loc)) (m : Store α) : Store α := runAtoms (l.map fun x => Atom.move x.1 x.2) m

theorem runMoves_cons (x : Loc × Loc) (l : List (Loc × Loc)) (m : Store α) :
    runMoves (x :: l) m = runMoves l fun k => if k = x.1 then m x.2 else m k := rfl

theorem runMoves_append (l l' : List (Loc × Loc)) (m : Store α) : runMoves (l ++ l') m = runMoves l' (runMoves l m) := by
  unfold runMoves
  rw [List.map_append, runAtoms_append]

/-- Cells that are not written keep their value. -/
theorem runMoves_frame : ∀ (l : List (Loc × Loc)) (m : Store α) {k : Loc}, (∀ x ∈ l, x.1 ≠ k) → runMoves l m k = m k
  | [], _, _, _ => rfl
  | x :: l, m, k, h => by
    rw [runMoves_cons, runMoves_frame l _ (fun y hy => h y (by simp [hy]))]
    exact if_neg fun e => h x (by simp) e.symm

/-- Moves that do not read what they write. -/
theorem runMoves_ok : ∀ (l : List (Loc × Loc)) (m : Store α), (∀ x ∈ l, ∀ y ∈ l, x.1 ≠ y.2) →
    (∀ x ∈ l, ∀ y ∈ l, x.1 = y.1 → x.2 = y.2) → ∀ x ∈ l, runMoves l m x.1 = m x.2
  | [], _, _, _, _, hx => absurd hx (by simp)
  | z :: l, m, h1, h2, x, hx => by
    rw [runMoves_cons]
    by_cases hin : ∃ y ∈ l, y.1 = x.1
    · obtain ⟨y, hy, hyx⟩ := hin
      have ih := runMoves_ok l (fun k => if k = z.1 then m z.2 else m k) (fun a ha b hb => h1 a (by simp [ha]) b (by simp [hb]))
        (fun a ha b hb => h2 a (by simp [ha]) b (by simp [hb])) y hy
      rw [hyx] at ih
      rw [ih, if_neg (fun e => h1 z (by simp) y (by simp [hy]) e.symm), h2 y (by simp [hy]) x hx hyx]
    · rw [runMoves_frame l _ (fun y hy e => hin ⟨y, hy, e⟩)]
      rcases List.mem_cons.1 hx with rfl | hx
      · exact if_pos rfl
      · exact absurd ⟨x, hx, rfl⟩ hin

theorem mem_onRank {r : Nat} {db sb : DevBuf} {l : List (Int × Int)} {x : Loc × Loc} :
    x ∈ onRank r db sb l ↔ ∃ a b, (a, b) ∈ l ∧ x = (.mem r db a, .mem r sb b) := by
  unfold onRank
  constructor
  · intro h
    obtain ⟨⟨a, b⟩, h', rfl⟩ := List.mem_map.1 h
    exact ⟨a, b, h', rfl⟩
  · rintro ⟨a, b, h, rfl⟩
    exact List.mem_map.2 ⟨(a, b), h, rfl⟩

theorem mem_transfer {r : Nat} {db sb : DevBuf} {d s n : Int} {x : Loc × Loc} :
    x ∈ transfer r db sb d s n ↔ ∃ t, (0 ≤ t ∧ t < n) ∧ x = (.mem r db (d + t), .mem r sb (s + t)) := by
  unfold transfer
  simp only [List.mem_map, mem_loop]
  constructor
  · rintro ⟨t, h, rfl⟩; exact ⟨t, h, rfl⟩
  · rintro ⟨t, h, rfl⟩; exact ⟨t, h, rfl⟩

/-- The moves of two lists are not in conflict. -/
def MovesApart (l l' : List (Loc × Loc)) : Prop := ∀ x ∈ l, ∀ y ∈ l', x.1 ≠ y.1 ∧ x.1 ≠ y.2 ∧ x.2 ≠ y.1

theorem MovesApart.atoms {l l' : List (Loc × Loc)} (h : MovesApart l l') :
    ∀ a ∈ l.map (fun x => Atom.move (α := α) x.1 x.2), ∀ b ∈ l'.map (fun x => Atom.move x.1 x.2), a.apart b := by
  intro a ha b hb
  obtain ⟨x, hx, rfl⟩ := List.mem_map.1 ha
  obtain ⟨y, hy, rfl⟩ := List.mem_map.1 hb
  obtain ⟨h1, h2, h3⟩ := h x hx y hy
  exact ⟨fun l e e' => h1 (e.symm.trans e'), fun l e e' => h2 (e.symm.trans e'), fun l e e' => h3 (e.symm.trans e')⟩

/-- Moves that can be performed in any order. -/
def Unmixed (l : List (Loc × Loc)) : Prop := ∀ x ∈ l, ∀ y ∈ l, x.1 ≠ y.2 ∧ (x.1 = y.1 → x.2 = y.2)

theorem Unmixed.atoms {l : List (Loc × Loc)} (h : Unmixed l) : ∀ a ∈ l.map (fun x => Atom.move (α := α) x.1 x.2),
    ∀ b ∈ l.map (fun x => Atom.move x.1 x.2), a.commute b := by
  intro a ha b hb m
  obtain ⟨x, hx, rfl⟩ := List.mem_map.1 ha
  obtain ⟨y, hy, rfl⟩ := List.mem_map.1 hb
  funext k
  have h1 := (h x hx y hy).1
  have h2 := (h y hy x hx).1
  have h3 := (h x hx y hy).2
  simp only [Atom.move]
  by_cases kx : k = x.1 <;> by_cases ky : k = y.1
  · have := h3 (by rw [← kx, ← ky])
    rw [if_pos ky, if_pos kx, if_neg (Ne.symm h1), if_neg (Ne.symm h2), this]
  · simp [if_neg ky, if_pos kx, if_neg (Ne.symm h2)]
  · simp [if_pos ky, if_neg kx, if_neg (Ne.symm h1)]
  · rw [if_neg ky, if_neg kx, if_neg kx, if_neg ky]

theorem Unmixed.transfer {r : Nat} {db sb : DevBuf} (hb : db ≠ sb) (d s n : Int) : Unmixed (transfer r db sb d s n) := by
  intro x hx y hy
  obtain ⟨t, -, rfl⟩ := mem_transfer.1 hx
  obtain ⟨t', -, rfl⟩ := mem_transfer.1 hy
  refine ⟨fun h => ?_, fun h => ?_⟩
  · simp only [Loc.mem.injEq] at h
    exact hb h.2.1
  · simp only [Loc.mem.injEq, true_and] at h ⊢
    omega

theorem Unmixed.nil : Unmixed [] := fun _ hx => absurd hx (by simp)

/-- A step of rank `r` only uses the memory of rank `r`. -/
def Atom.onRank (a : Atom α) (r : Nat) : Prop := ∀ l, a.reads l ∨ a.writes l → ∃ b x, l = .mem r b x

theorem Atom.onRank.apart {a b : Atom α} {r q : Nat} (ha : a.onRank r) (hb : b.onRank q) (h : r ≠ q) : a.apart b := by
  have key : ∀ l, (a.reads l ∨ a.writes l) → ¬ (b.reads l ∨ b.writes l) := by
    intro l h1 h2
    obtain ⟨x, y, rfl⟩ := ha l h1
    obtain ⟨x', y', h3⟩ := hb _ h2
    simp only [Loc.mem.injEq] at h3
    exact h h3.1
  exact ⟨fun l h1 h2 => key l (.inr h1) (.inr h2), fun l h1 h2 => key l (.inr h1) (.inl h2), fun l h1 h2 => key l (.inl h1) (.inr h2)⟩

/-! ## The operations -/

/-- The rank of an operation of one rank. -/
def CollOp.rank? : CollOp → Option Nat
  | .pre r | .pk r | .ul r | .ld r | .un r => some r
  | .xf _ _ => none

variable {n nb : Nat} {I O : Nat → Box} {W : Nat → Int} {jobs : List Job} {link : Nat → Nat → Prop} {own : Nat → Prop}
  {S R e : Nat → Nat → Int} {mid : Nat → Int}

/-- A collective reshape whose messages have a sound layout. -/
structure CollOk (n nb : Nat) (I O : Nat → Box) (W : Nat → Int) (link : Nat → Nat → Prop) (S R e : Nat → Nat → Int)
    (mid : Nat → Int) (c : Coll) : Prop where
  good : Good n nb I O W c.jobs link (fun _ => False) S R e mid
  ordI : ∀ r, r < n → IsOrder (I r).order
  ordO : ∀ r, r < n → IsOrder (O r).order
  uniq : ∀ s s', s < n → s' < n → ∀ p : A3 Int, p ∈ I s → p ∈ I s' → s = s'
  active : ∀ s r, link s r → c.active s = true ∧ c.active r = true
  base : ∀ r, r < n → c.active r = true → (c.staging r).base = mid r
  sendLen : ∀ r, r < n → c.active r = true → (c.staging r).sendLen = mid r
  recvLen : ∀ r, r < n → c.active r = true → (c.staging r).recvLen = W r - mid r
  idleLen : ∀ r, r < n → c.active r = false → ∀ w, c.transport = .staged w → (c.staging r).sendLen ≤ 0 ∧ (c.staging r).recvLen ≤ 0

section
variable {c : Coll}

theorem Coll.job_eq {r : Nat} {j : Job} (h : c.jobs[r]? = some j) : c.job r = j := by
  unfold Coll.job
  rw [h]; rfl

theorem CollOk.xf (h : CollOk n nb I O W link S R e mid c) {s r : Nat} (hr : r < n) (x : Loc × Loc) :
    x ∈ collMoves c (.xf s r) ↔ link s r ∧ ∃ t, (0 ≤ t ∧ t < nb * e s r) ∧ x = (c.into r (R r s + t), .mem s c.from (S s r + t)) := by
  obtain ⟨job, hj⟩ := h.good.job_exists hr
  simp only [collMoves]
  rw [Coll.job_eq hj]
  simp only [List.mem_flatMap, List.mem_filter, decide_eq_true_eq]
  constructor
  · rintro ⟨m, ⟨hm, hp⟩, hx⟩
    obtain ⟨s', hl, rfl⟩ := (h.good.recvs r job hj m).1 hm
    dsimp only at hp
    subst hp
    rw [h.good.matchSend hl] at hx
    simp only [List.mem_map, mem_loop] at hx
    obtain ⟨t, ht, rfl⟩ := hx
    exact ⟨hl, t, ht, rfl⟩
  · rintro ⟨hl, t, ht, rfl⟩
    refine ⟨_, ⟨(h.good.recvs r job hj _).2 ⟨s, hl, rfl⟩, rfl⟩, ?_⟩
    rw [h.good.matchSend hl]
    simp only [List.mem_map, mem_loop]
    exact ⟨t, ht, rfl⟩

theorem CollOk.transfers (h : CollOk n nb I O W link S R e mid c) {s r : Nat} (hl : link s r) :
    CollOp.xf s r ∈ c.transfers s ∧ CollOp.xf s r ∈ c.transfers r := by
  obtain ⟨hs, hr⟩ := h.good.linkLt s r hl
  obtain ⟨js, hjs⟩ := h.good.job_exists hs
  obtain ⟨jr, hjr⟩ := h.good.job_exists hr
  unfold Coll.transfers
  rw [Coll.job_eq hjs, Coll.job_eq hjr]
  constructor
  · exact List.mem_append_left _ (List.mem_map.2 ⟨_, (h.good.sends s js hjs _).2 ⟨r, hl, rfl⟩, rfl⟩)
  · exact List.mem_append_right _ (List.mem_map.2 ⟨_, (h.good.recvs r jr hjr _).2 ⟨s, hl, rfl⟩, rfl⟩)

/-- The operations of a rank without a reshape object move nothing. -/
theorem CollOk.idle (h : CollOk n nb I O W link S R e mid c) {r : Nat} (hr : r < n) (ha : c.active r = false) :
    (c.job r).packs = [] ∧ (c.job r).unpacks = [] := by
  obtain ⟨job, hj⟩ := h.good.job_exists hr
  rw [Coll.job_eq hj]
  constructor
  · rw [List.eq_nil_iff_forall_not_mem]
    intro m hm
    obtain ⟨q, j, p, hl, -⟩ := (h.good.packs r job hj m).1 hm
    rw [(h.active r q hl).1] at ha
    exact absurd ha (by simp)
  · rw [List.eq_nil_iff_forall_not_mem]
    intro m hm
    obtain ⟨s, j, p, hs, -, h1, h2, -⟩ := (h.good.unpacks r job hj m).1 hm
    rcases h.good.cover s r hs hr (msgCount_pos h1 h2) with hl | hl
    · rw [(h.active s r hl).2] at ha
      exact absurd ha (by simp)
    · exact hl.2

/-! ## No races -/

/-- Finds `l` in a program. -/
macro "in_prog" : tactic => `(tactic|
  repeat (first | exact List.nil_sublist _ | apply List.Sublist.cons_cons | apply List.Sublist.cons))

theorem prog_aware (ha : c.active r = true) (ht : c.transport = .aware) : collProg c r =
    [.launch (.pre r), .launch (.pk r), .sync, .call (c.transfers r), .launch (.un r)] := by
  simp only [collProg, ha, ht, if_true]

theorem prog_staged (ha : c.active r = true) (ht : c.transport = .staged true) : collProg c r =
    [.launch (.pre r), .launch (.pk r), .sync, .launch (.ul r), .sync, .call (c.transfers r), .launch (.ld r), .launch (.un r)] := by
  simp only [collProg, ha, ht, if_true, Transport.after]
  rfl

/-- What MPI reads and writes is ready before and used after the call. -/
theorem before_call (ha : c.active r = true) (hs : c.transport.sound = true) {x : CollOp} (hx : x ∈ c.transfers r) (o : CollOp)
    (ho : o = .pre r ∨ o = .pk r ∨ o = .ul r ∧ c.transport ≠ .aware) : Guarantee (collProg c) (fun _ _ => False) o x := by
  have hf : x ∈ (HostInstr.call (c.transfers r)).starts := hx
  cases ht : c.transport with
  | aware =>
    rcases ho with rfl | rfl | ⟨-, h⟩
    · exact .sync (r := r) (by rw [prog_aware ha ht]; in_prog) hf
    · exact .sync (r := r) (by rw [prog_aware ha ht]; in_prog) hf
    · exact absurd ht h
  | staged w =>
    rw [ht] at hs
    obtain rfl : w = true := hs
    rcases ho with rfl | rfl | ⟨rfl, -⟩
    · exact .sync (r := r) (by rw [prog_staged ha ht]; in_prog) hf
    · exact .sync (r := r) (by rw [prog_staged ha ht]; in_prog) hf
    · exact .sync (r := r) (by rw [prog_staged ha ht]; in_prog) hf

theorem after_call (ha : c.active r = true) (hs : c.transport.sound = true) {x : CollOp} (hx : x ∈ c.transfers r) (o : CollOp)
    (ho : o = .un r ∨ o = .ld r ∧ c.transport ≠ .aware) : Guarantee (collProg c) (fun _ _ => False) x o := by
  cases ht : c.transport with
  | aware =>
    rcases ho with rfl | ⟨-, h⟩
    · exact .ended (r := r) (i := .call (c.transfers r)) (j := .launch (.un r)) (by rw [prog_aware ha ht]; in_prog) hx (by simp [HostInstr.starts])
    · exact absurd ht h
  | staged w =>
    rw [ht] at hs
    obtain rfl : w = true := hs
    rcases ho with rfl | ⟨rfl, -⟩
    · exact .ended (r := r) (i := .call (c.transfers r)) (j := .launch (.un r)) (by rw [prog_staged ha ht]; in_prog) hx (by simp [HostInstr.starts])
    · exact .ended (r := r) (i := .call (c.transfers r)) (j := .launch (.ld r)) (by rw [prog_staged ha ht]; in_prog) hx (by simp [HostInstr.starts])

/-- The number of the phase. -/
def CollOp.phase : CollOp → Nat
  | .pre _ => 0 | .pk _ => 1 | .ul _ => 2 | .xf _ _ => 3 | .ld _ => 4 | .un _ => 5

theorem CollOp.phase_pre (r : Nat) : (CollOp.pre r).phase = 0 := rfl
theorem CollOp.phase_pk (r : Nat) : (CollOp.pk r).phase = 1 := rfl
theorem CollOp.phase_ul (r : Nat) : (CollOp.ul r).phase = 2 := rfl
theorem CollOp.phase_ld (r : Nat) : (CollOp.ld r).phase = 4 := rfl
theorem CollOp.phase_un (r : Nat) : (CollOp.un r).phase = 5 := rfl

theorem coll_order (hs : c.transport.sound = true) :
    ∀ o o', Guarantee (collProg c) (fun _ _ => False) o o' → o.phase < o'.phase := by
  apply guarantee_lt
  · intro r
    have hx : ∀ x ∈ c.transfers r, x.phase = 3 := by
      intro x hx
      unfold Coll.transfers at hx
      rcases List.mem_append.1 hx with hx | hx
      · obtain ⟨m, -, rfl⟩ := List.mem_map.1 hx; rfl
      · obtain ⟨m, -, rfl⟩ := List.mem_map.1 hx; rfl
    cases ha : c.active r with
    | false => simp [collProg, ha]
    | true =>
      cases ht : c.transport with
      | aware =>
        rw [prog_aware ha ht]
        simp [HostInstr.ends, HostInstr.starts, CollOp.phase_pre, CollOp.phase_pk, CollOp.phase_ul, CollOp.phase_ld, CollOp.phase_un] <;> grind
      | staged w =>
        rw [ht] at hs
        obtain rfl : w = true := hs
        rw [prog_staged ha ht]
        simp [HostInstr.ends, HostInstr.starts, CollOp.phase_pre, CollOp.phase_pk, CollOp.phase_ul, CollOp.phase_ld, CollOp.phase_un] <;> grind
  · simp


/-- The moves of an operation of one rank use the memory of that rank. -/
theorem collMoves_rank {o : CollOp} {r : Nat} (ho : o.rank? = some r) {x : Loc × Loc} (hx : x ∈ collMoves c o) :
    ∃ b a b' a', x = (.mem r b a, .mem r b' a') := by
  cases o with
  | pre q => simp [collMoves] at hx
  | pk q =>
    obtain rfl : q = r := by simpa [CollOp.rank?] using ho
    obtain ⟨a, b, -, rfl⟩ := mem_onRank.1 hx
    exact ⟨_, _, _, _, rfl⟩
  | ul q =>
    obtain rfl : q = r := by simpa [CollOp.rank?] using ho
    simp only [collMoves] at hx
    split at hx
    · simp at hx
    · obtain ⟨t, -, rfl⟩ := mem_transfer.1 hx
      exact ⟨_, _, _, _, rfl⟩
  | xf s q => simp [CollOp.rank?] at ho
  | ld q =>
    obtain rfl : q = r := by simpa [CollOp.rank?] using ho
    simp only [collMoves] at hx
    split at hx
    · simp at hx
    · obtain ⟨t, -, rfl⟩ := mem_transfer.1 hx
      exact ⟨_, _, _, _, rfl⟩
  | un q =>
    obtain rfl : q = r := by simpa [CollOp.rank?] using ho
    obtain ⟨a, b, -, rfl⟩ := mem_onRank.1 hx
    exact ⟨_, _, _, _, rfl⟩

theorem Coll.into_rank (c : Coll) (r : Nat) (a : Int) : ∃ b x, c.into r a = .mem r b x := by
  unfold Coll.into
  split
  · exact ⟨_, _, rfl⟩
  · exact ⟨_, _, rfl⟩

theorem collAct_rank {pre : Nat → List (Atom α)} (hpre : ∀ r, ∀ a ∈ pre r, a.onRank r) {o : CollOp} {r : Nat}
    (ho : o.rank? = some r) {a : Atom α} (ha : a ∈ collAct c pre o) : a.onRank r := by
  by_cases hp : ∃ q, o = .pre q
  · obtain ⟨q, rfl⟩ := hp
    obtain rfl : q = r := by simpa [CollOp.rank?] using ho
    exact hpre q a ha
  · have : a ∈ (collMoves c o).map fun x => Atom.move x.1 x.2 := by
      cases o with
      | pre q => exact absurd ⟨q, rfl⟩ hp
      | _ => exact ha
    obtain ⟨x, hx, rfl⟩ := List.mem_map.1 this
    obtain ⟨b, a, b', a', rfl⟩ := collMoves_rank ho hx
    rintro l (h | h)
    · exact ⟨b', a', h⟩
    · exact ⟨b, a, h⟩

theorem stream_aware (ha : c.active r = true) (ht : c.transport = .aware) {o o' : CollOp}
    (h : [HostInstr.launch o, .launch o'].Sublist
      [.launch (.pre r), .launch (.pk r), .sync, .call (c.transfers r), .launch (.un r)]) :
    Guarantee (collProg c) (fun _ _ => False) o o' := .stream (r := r) (by rw [prog_aware ha ht]; exact h)

theorem stream_staged (ha : c.active r = true) (ht : c.transport = .staged true) {o o' : CollOp}
    (h : [HostInstr.launch o, .launch o'].Sublist [.launch (.pre r), .launch (.pk r), .sync, .launch (.ul r), .sync,
      .call (c.transfers r), .launch (.ld r), .launch (.un r)]) :
    Guarantee (collProg c) (fun _ _ => False) o o' := .stream (r := r) (by rw [prog_staged ha ht]; exact h)

/-- Operations of one stream are ordered; those that are not in the program do nothing. -/
theorem CollOk.same_rank (h : CollOk n nb I O W link S R e mid c) (hs : c.transport.sound = true) {pre : Nat → List (Atom α)}
    {r : Nat} (hr : r < n) {o o' : CollOp} (ho : o.rank? = some r) (ho' : o'.rank? = some r) (hlt : o.phase < o'.phase) :
    Guarantee (collProg c) (fun _ _ => False) o o' ∨ collAct c pre o = [] ∨ collAct c pre o' = [] := by
  cases ha : c.active r with
  | false =>
    obtain ⟨h1, h2⟩ := h.idle hr ha
    have hw : ∀ w, c.transport = .staged w → (c.staging r).sendLen ≤ 0 ∧ (c.staging r).recvLen ≤ 0 := h.idleLen r hr ha
    have hnil : ∀ q d s x y k, k ≤ 0 → transfer q d s x y k = [] := by
      intro q d s x y k hk
      rw [List.eq_nil_iff_forall_not_mem]
      intro z hz
      obtain ⟨t, ht, -⟩ := mem_transfer.1 hz
      omega
    refine Or.inr (Or.inr ?_)
    cases o' <;> simp only [CollOp.rank?, Option.some.injEq, reduceCtorEq] at ho' <;> subst ho' <;> simp only [CollOp.phase] at hlt
    · omega
    · simp [collAct, collMoves, h1, onRank]
    · cases ht : c.transport with
      | aware => simp [collAct, collMoves, ht]
      | staged w => simp [collAct, collMoves, ht, hnil _ _ _ _ _ _ (hw w ht).1]
    · cases ht : c.transport with
      | aware => simp [collAct, collMoves, ht]
      | staged w => simp [collAct, collMoves, ht, hnil _ _ _ _ _ _ (hw w ht).2]
    · simp [collAct, collMoves, h2, onRank]
  | true =>
    cases ht : c.transport with
    | aware =>
      cases o <;> cases o' <;> simp only [CollOp.rank?, Option.some.injEq, reduceCtorEq] at ho ho' <;> subst ho <;> subst ho' <;>
        simp only [CollOp.phase] at hlt <;> first
        | omega
        | (refine Or.inr (Or.inl ?_); simp [collAct, collMoves, ht]; done)
        | (refine Or.inr (Or.inr ?_); simp [collAct, collMoves, ht]; done)
        | exact Or.inl (stream_aware ha ht (by in_prog))
    | staged w =>
      rw [ht] at hs
      obtain rfl : w = true := hs
      cases o <;> cases o' <;> simp only [CollOp.rank?, Option.some.injEq, reduceCtorEq] at ho ho' <;> subst ho <;> subst ho' <;>
        simp only [CollOp.phase] at hlt <;> first
        | omega
        | exact Or.inl (stream_staged ha ht (by in_prog))


theorem act_of_moves {pre : Nat → List (Atom α)} {s r : Nat} :
    collAct c pre (.xf s r) = (collMoves c (.xf s r)).map fun x => Atom.move x.1 x.2 := rfl

/-- A transfer is ordered with the operations of the two ranks. -/
theorem CollOk.xf_rank (h : CollOk n nb I O W link S R e mid c) (hs : c.transport.sound = true) {pre : Nat → List (Atom α)}
    {s r q : Nat} (hl : link s r) (hq : q = s ∨ q = r) {o : CollOp} (ho : o.rank? = some q) :
    Guarantee (collProg c) (fun _ _ => False) o (.xf s r) ∨ Guarantee (collProg c) (fun _ _ => False) (.xf s r) o ∨
      collAct c pre o = [] := by
  have ha : c.active q = true := by
    rcases hq with rfl | rfl
    · exact (h.active _ _ hl).1
    · exact (h.active _ _ hl).2
  have hx : CollOp.xf s r ∈ c.transfers q := by
    rcases hq with rfl | rfl
    · exact (h.transfers hl).1
    · exact (h.transfers hl).2
  by_cases ht : c.transport = .aware
  · cases o <;> simp only [CollOp.rank?, Option.some.injEq, reduceCtorEq] at ho <;> subst ho
    · exact Or.inl (before_call ha hs hx _ (by simp))
    · exact Or.inl (before_call ha hs hx _ (by simp))
    · exact Or.inr (Or.inr (by simp [collAct, collMoves, ht]))
    · exact Or.inr (Or.inr (by simp [collAct, collMoves, ht]))
    · exact Or.inr (Or.inl (after_call ha hs hx _ (by simp)))
  · cases o <;> simp only [CollOp.rank?, Option.some.injEq, reduceCtorEq] at ho <;> subst ho
    · exact Or.inl (before_call ha hs hx _ (by simp))
    · exact Or.inl (before_call ha hs hx _ (by simp))
    · exact Or.inl (before_call ha hs hx _ (by simp [ht]))
    · exact Or.inr (Or.inl (after_call ha hs hx _ (by simp [ht])))
    · exact Or.inr (Or.inl (after_call ha hs hx _ (by simp)))

/-- Two transfers use different cells. -/
theorem CollOk.xf_xf (h : CollOk n nb I O W link S R e mid c) {s r s' r' : Nat} (hr : r < n) (hr' : r' < n)
    (hne : ¬ (s = s' ∧ r = r')) : MovesApart (collMoves c (.xf s r)) (collMoves c (.xf s' r')) := by
  intro x hx y hy
  obtain ⟨hl, t, ht, rfl⟩ := (h.xf hr x).1 hx
  obtain ⟨hl', t', ht', rfl⟩ := (h.xf hr' y).1 hy
  have hA := h.good.recvIn s r (.inl hl)
  have hA' := h.good.recvIn s' r' (.inl hl')
  have hB := h.good.sendIn s r hl
  have hB' := h.good.sendIn s' r' hl'
  have hI : r = r' → s ≠ s' → R r s + t ≠ R r' s' + t' := by
    rintro rfl hss
    have := h.good.recvApart s s' r (.inl hl) (.inl hl') hss
    omega
  cases hc : c.transport with
  | aware =>
    simp only [Coll.into, Coll.from, hc, ne_eq, Loc.mem.injEq, true_and]
    refine ⟨?_, ?_, ?_⟩
    · rintro ⟨h1, h2⟩
      exact hI h1 (fun h3 => hne ⟨h3, h1⟩) h2
    · rintro ⟨rfl, h2⟩
      omega
    · rintro ⟨rfl, h2⟩
      omega
  | staged w =>
    simp only [Coll.into, Coll.from, hc, ne_eq, Loc.mem.injEq, true_and, reduceCtorEq, false_and, and_false,
      not_false_eq_true, and_true]
    rintro ⟨h1, h2⟩
    refine hI h1 (fun h3 => hne ⟨h3, h1⟩) ?_
    rw [h1] at h2 ⊢
    omega

theorem mem_collOps {n : Nat} {o : CollOp} (h : o ∈ collOps n) :
    (∃ r, r < n ∧ o.rank? = some r) ∨ ∃ s r, s < n ∧ r < n ∧ o = .xf s r := by
  simp only [collOps, List.mem_append, List.mem_map, List.mem_flatMap, List.mem_range] at h
  rcases h with ((((⟨r, hr, rfl⟩ | ⟨r, hr, rfl⟩) | ⟨r, hr, rfl⟩) | ⟨s, hs, r, hr, rfl⟩) | ⟨r, hr, rfl⟩) | ⟨r, hr, rfl⟩
  · exact Or.inl ⟨r, hr, rfl⟩
  · exact Or.inl ⟨r, hr, rfl⟩
  · exact Or.inl ⟨r, hr, rfl⟩
  · exact Or.inr ⟨s, r, hs, hr, rfl⟩
  · exact Or.inl ⟨r, hr, rfl⟩
  · exact Or.inl ⟨r, hr, rfl⟩

/-- A transfer and an operation of one rank. -/
theorem CollOk.race_xf (h : CollOk n nb I O W link S R e mid c) (hs : c.transport.sound = true) {pre : Nat → List (Atom α)}
    (hpre : ∀ r, ∀ a ∈ pre r, a.onRank r) {s r q : Nat} (hr : r < n) {o : CollOp} (ho : o.rank? = some q) :
    Guarantee (collProg c) (fun _ _ => False) o (.xf s r) ∨ Guarantee (collProg c) (fun _ _ => False) (.xf s r) o ∨
      ∀ a ∈ collAct c pre o, ∀ b ∈ collAct c pre (.xf s r), a.apart b := by
  by_cases hl : link s r
  · by_cases hq : q = s ∨ q = r
    · rcases h.xf_rank hs (pre := pre) hl hq ho with h1 | h1 | h1
      · exact Or.inl h1
      · exact Or.inr (Or.inl h1)
      · exact Or.inr (Or.inr (by rw [h1]; simp))
    · refine Or.inr (Or.inr ?_)
      intro a ha b hb
      obtain ⟨x, hx, rfl⟩ := List.mem_map.1 hb
      obtain ⟨-, t, -, rfl⟩ := (h.xf hr x).1 hx
      have hon := collAct_rank hpre ho ha
      obtain ⟨b1, a1, h1⟩ := c.into_rank r (R r s + t)
      refine ⟨?_, ?_, ?_⟩
      · intro l hw hw'
        obtain ⟨b2, a2, rfl⟩ := hon l (.inr hw)
        have h2 : Loc.mem q b2 a2 = c.into r (R r s + t) := hw'
        rw [h1] at h2
        simp only [Loc.mem.injEq] at h2
        exact hq (.inr h2.1)
      · intro l hw hw'
        obtain ⟨b2, a2, rfl⟩ := hon l (.inr hw)
        have h2 : Loc.mem q b2 a2 = Loc.mem s c.from (S s r + t) := hw'
        simp only [Loc.mem.injEq] at h2
        exact hq (.inl h2.1)
      · intro l hw hw'
        obtain ⟨b2, a2, rfl⟩ := hon l (.inl hw)
        have h2 : Loc.mem q b2 a2 = c.into r (R r s + t) := hw'
        rw [h1] at h2
        simp only [Loc.mem.injEq] at h2
        exact hq (.inr h2.1)
  · refine Or.inr (Or.inr ?_)
    intro a ha b hb
    obtain ⟨x, hx, rfl⟩ := List.mem_map.1 hb
    exact absurd ((h.xf hr x).1 hx).1 hl

theorem rank_phase {o o' : CollOp} {r : Nat} (h : o.rank? = some r) (h' : o'.rank? = some r) (hp : o.phase = o'.phase) : o = o' := by
  cases o <;> cases o' <;> simp only [CollOp.rank?, Option.some.injEq, reduceCtorEq] at h h' <;> subst h <;> subst h' <;>
    first | rfl | (simp only [CollOp.phase] at hp; omega)

theorem CollOk.raceFree (h : CollOk n nb I O W link S R e mid c) (hs : c.transport.sound = true) {pre : Nat → List (Atom α)}
    (hpre : ∀ r, ∀ a ∈ pre r, a.onRank r) : RaceFree (Guarantee (collProg c) fun _ _ => False) (collAct c pre) (collOps n) := by
  intro o ho o' ho' hne
  rcases mem_collOps ho with ⟨r, hr, h1⟩ | ⟨s, r, hsn, hr, rfl⟩
  · rcases mem_collOps ho' with ⟨r', hr', h1'⟩ | ⟨s', r', hsn', hr', rfl⟩
    · by_cases hrr : r = r'
      · subst hrr
        rcases lt_trichotomy o.phase o'.phase with hp | hp | hp
        · rcases h.same_rank hs (pre := pre) hr h1 h1' hp with h2 | h2 | h2
          · exact Or.inl (.single h2)
          · exact Or.inr (Or.inr (by rw [h2]; simp))
          · exact Or.inr (Or.inr (by rw [h2]; simp))
        · exact absurd (rank_phase h1 h1' hp) hne
        · rcases h.same_rank hs (pre := pre) hr h1' h1 hp with h2 | h2 | h2
          · exact Or.inr (Or.inl (.single h2))
          · exact Or.inr (Or.inr (by rw [h2]; simp))
          · exact Or.inr (Or.inr (by rw [h2]; simp))
      · exact Or.inr (Or.inr fun a ha b hb => (collAct_rank hpre h1 ha).apart (collAct_rank hpre h1' hb) hrr)
    · rcases h.race_xf hs hpre (s := s') hr' h1 with h2 | h2 | h2
      · exact Or.inl (.single h2)
      · exact Or.inr (Or.inl (.single h2))
      · exact Or.inr (Or.inr h2)
  · rcases mem_collOps ho' with ⟨r', hr', h1'⟩ | ⟨s', r', hsn', hr', rfl⟩
    · rcases h.race_xf hs hpre (s := s) hr h1' with h2 | h2 | h2
      · exact Or.inr (Or.inl (.single h2))
      · exact Or.inl (.single h2)
      · exact Or.inr (Or.inr fun a ha b hb => (h2 b hb a ha).symm)
    · refine Or.inr (Or.inr ?_)
      exact (h.xf_xf hr hr' (fun h3 => hne (by rw [h3.1, h3.2]))).atoms

theorem collOps_sorted (n : Nat) : (collOps n).Pairwise fun o o' => o.phase ≤ o'.phase := by
  have hc : ∀ (k : Nat) (l : List CollOp), (∀ o ∈ l, o.phase = k) → l.Pairwise fun o o' => o.phase ≤ o'.phase := by
    intro k l hl
    apply List.pairwise_of_forall_mem_list
    intro a ha b hb
    rw [hl a ha, hl b hb]
  unfold collOps
  simp only [List.pairwise_append, List.mem_append, List.mem_map, List.mem_flatMap]
  refine ⟨⟨⟨⟨⟨?_, ?_, ?_⟩, ?_, ?_⟩, ?_, ?_⟩, ?_, ?_⟩, ?_, ?_⟩
  · exact hc 0 _ (by simp [CollOp.phase])
  · exact hc 1 _ (by simp [CollOp.phase])
  · rintro _ ⟨a, -, rfl⟩ _ ⟨b, -, rfl⟩; simp [CollOp.phase]
  · exact hc 2 _ (by simp [CollOp.phase])
  · rintro _ (⟨a, -, rfl⟩ | ⟨a, -, rfl⟩) _ ⟨b, -, rfl⟩ <;> simp [CollOp.phase]
  · exact hc 3 _ (by simp [CollOp.phase]; rintro _ _ _ _ _ rfl; rfl)
  · rintro _ ((⟨a, -, rfl⟩ | ⟨a, -, rfl⟩) | ⟨a, -, rfl⟩) _ ⟨b, -, k, -, rfl⟩ <;> simp [CollOp.phase]
  · exact hc 4 _ (by simp [CollOp.phase])
  · rintro _ (((⟨a, -, rfl⟩ | ⟨a, -, rfl⟩) | ⟨a, -, rfl⟩) | ⟨a, -, k, -, rfl⟩) _ ⟨b, -, rfl⟩ <;> simp [CollOp.phase]
  · exact hc 5 _ (by simp [CollOp.phase])
  · rintro _ ((((⟨a, -, rfl⟩ | ⟨a, -, rfl⟩) | ⟨a, -, rfl⟩) | ⟨a, -, k, -, rfl⟩) | ⟨a, -, rfl⟩) _ ⟨b, -, rfl⟩ <;> simp [CollOp.phase]

theorem collOps_nodup (n : Nat) : (collOps n).Nodup := by
  have hm : ∀ f : Nat → CollOp, (∀ a b, f a = f b → a = b) → ((List.range n).map f).Nodup :=
    fun f hf => List.nodup_range.map hf
  unfold collOps
  simp only [List.nodup_append, List.mem_append, List.mem_map, List.mem_flatMap]
  refine ⟨⟨⟨⟨⟨?_, ?_, ?_⟩, ?_, ?_⟩, ?_, ?_⟩, ?_, ?_⟩, ?_, ?_⟩
  · exact hm _ (by simp)
  · exact hm _ (by simp)
  · rintro _ ⟨a, -, rfl⟩ _ ⟨b, -, rfl⟩; simp
  · exact hm _ (by simp)
  · rintro _ (⟨a, -, rfl⟩ | ⟨a, -, rfl⟩) _ ⟨b, -, rfl⟩ <;> simp
  · rw [List.nodup_flatMap]
    refine ⟨fun s _ => hm _ (by simp), ?_⟩
    apply List.nodup_range.imp
    intro a b hab x hx hy
    obtain ⟨i, -, rfl⟩ := List.mem_map.1 hx
    obtain ⟨j, -, hj⟩ := List.mem_map.1 hy
    simp only [CollOp.xf.injEq] at hj
    exact hab hj.1.symm
  · rintro _ ((⟨a, -, rfl⟩ | ⟨a, -, rfl⟩) | ⟨a, -, rfl⟩) _ ⟨b, -, k, -, rfl⟩ <;> simp
  · exact hm _ (by simp)
  · rintro _ (((⟨a, -, rfl⟩ | ⟨a, -, rfl⟩) | ⟨a, -, rfl⟩) | ⟨a, -, k, -, rfl⟩) _ ⟨b, -, rfl⟩ <;> simp
  · exact hm _ (by simp)
  · rintro _ ((((⟨a, -, rfl⟩ | ⟨a, -, rfl⟩) | ⟨a, -, rfl⟩) | ⟨a, -, k, -, rfl⟩) | ⟨a, -, rfl⟩) _ ⟨b, -, rfl⟩ <;> simp

/-- The moves of one operation can be performed in any order. -/
theorem CollOk.unmixed (h : CollOk n nb I O W link S R e mid c) {o : CollOp} (ho : o ∈ collOps n) : Unmixed (collMoves c o) := by
  have hlt : ∀ r, o.rank? = some r → r < n := by
    intro r hr
    rcases mem_collOps ho with ⟨q, hq, h1⟩ | ⟨_, _, _, _, rfl⟩
    · rw [h1] at hr
      exact Option.some.inj hr ▸ hq
    · simp [CollOp.rank?] at hr
  cases o with
  | pre r => exact .nil
  | pk s =>
    have hs := hlt s rfl
    obtain ⟨job, hjob⟩ := h.good.job_exists hs
    have hch : ∀ x ∈ collMoves c (.pk s), ∃ r j p, link s r ∧ j < nb ∧ p ∈ I s ∧ p ∈ O r ∧
        x = (Loc.mem s .ws (S s r + j * e s r + msgOff (I s) (O r) p), Loc.mem s .src (j * (I s).count + (I s).offset p)) := by
      intro x hx
      obtain ⟨a, b, hm, rfl⟩ := mem_onRank.1 hx
      rw [Coll.job_eq hjob] at hm
      obtain ⟨r, j, p, h1, h2, h3, h4, h5⟩ := (h.good.packs s job hjob _).1 hm
      simp only [Prod.mk.injEq] at h5
      exact ⟨r, j, p, h1, h2, h3, h4, by rw [h5.1, h5.2]⟩
    intro x hx y hy
    obtain ⟨r, j, p, hl, hjb, hpI, hpO, rfl⟩ := hch x hx
    obtain ⟨r', j', p', hl', hjb', hpI', hpO', rfl⟩ := hch y hy
    refine ⟨by simp, fun heq => ?_⟩
    simp only [Loc.mem.injEq, true_and] at heq
    have hr := msgOff_range (h.ordI s hs) hpI hpO
    have hr' := msgOff_range (h.ordI s hs) hpI' hpO'
    have h4 := h.good.stride s r (.inl hl)
    have h4' := h.good.stride s r' (.inl hl')
    have h6 := entry_range (nb := nb) h4 hr hjb
    have h6' := entry_range (nb := nb) h4' hr' hjb'
    by_cases hrr : r = r'
    · subst hrr
      obtain ⟨hjj, hoff⟩ := entry_inj h4 hr hr' heq hjb
      have := msgOff_inj (h.ordI s hs) hpI hpO hpI' hpO' hoff
      rw [hjj, this]
    · have := h.good.sendApart s r r' hl hl' hrr
      omega
  | ul r =>
    simp only [collMoves]
    split
    · exact .nil
    · exact .transfer (by simp) _ _ _
  | xf s r =>
    rcases mem_collOps ho with ⟨_, _, h1⟩ | ⟨_, _, hs, hr, h1⟩
    · simp [CollOp.rank?] at h1
    · obtain ⟨rfl, rfl⟩ := CollOp.xf.inj h1
      intro x hx y hy
      obtain ⟨hl, t, ht, rfl⟩ := (h.xf hr x).1 hx
      obtain ⟨hl', t', ht', rfl⟩ := (h.xf hr y).1 hy
      have hA := h.good.recvIn s r (.inl hl)
      have hB := h.good.sendIn s r hl
      constructor
      · cases hc : c.transport with
        | aware =>
          simp only [Coll.into, Coll.from, hc, ne_eq, Loc.mem.injEq, true_and]
          rintro ⟨rfl, h2⟩
          omega
        | staged w => simp [Coll.into, Coll.from, hc]
      · intro heq
        have : t = t' := by
          dsimp only at heq
          cases hc : c.transport <;> simp only [Coll.into, hc, Loc.mem.injEq, true_and] at heq <;> omega
        rw [this]
  | ld r =>
    simp only [collMoves]
    split
    · exact .nil
    · exact .transfer (by simp) _ _ _
  | un r =>
    have hr := hlt r rfl
    obtain ⟨job, hjob⟩ := h.good.job_exists hr
    have hch : ∀ x ∈ collMoves c (.un r), ∃ (s j : Nat) (p : A3 Int), s < n ∧ j < nb ∧ p ∈ I s ∧ p ∈ O r ∧
        x = (Loc.mem r (c.out r) (j * (O r).count + (O r).offset p), Loc.mem r .ws (R r s + j * e s r + msgOff (I s) (O r) p)) := by
      intro x hx
      obtain ⟨a, b, hm, rfl⟩ := mem_onRank.1 hx
      rw [Coll.job_eq hjob] at hm
      obtain ⟨s, j, p, h1, h2, h3, h4, h5⟩ := (h.good.unpacks r job hjob _).1 hm
      simp only [Prod.mk.injEq] at h5
      exact ⟨s, j, p, h1, h2, h3, h4, by rw [h5.1, h5.2]⟩
    intro x hx y hy
    obtain ⟨s, j, p, hs, hjb, hpI, hpO, rfl⟩ := hch x hx
    obtain ⟨s', j', p', hs', hjb', hpI', hpO', rfl⟩ := hch y hy
    constructor
    · intro heq
      simp only [Loc.mem.injEq] at heq
      have h2 := heq.2.1
      unfold Coll.out at h2
      split at h2 <;> simp at h2
    · intro heq
      simp only [Loc.mem.injEq, true_and] at heq
      have hro := Box.offset_range (h.ordO r hr) hpO
      have hro' := Box.offset_range (h.ordO r hr) hpO'
      obtain ⟨hjj, hoff⟩ := entry_inj (A := 0) (nb := nb) (e := (O r).count) le_rfl hro hro' (by linarith) hjb
      have hpp := Box.offset_inj (h.ordO r hr) hpO hpO' hoff
      subst hpp
      have := h.uniq s s' hs hs' p hpI hpI'
      rw [hjj, this]

theorem CollOk.anyOrder (h : CollOk n nb I O W link S R e mid c) (pre : Nat → List (Atom α)) :
    AnyOrder CollOp.inOrder (collAct c pre) (collOps n) := by
  intro o ho hq
  have : collAct c pre o = (collMoves c o).map fun x => Atom.move x.1 x.2 := by
    cases o with
    | pre r => simp [CollOp.inOrder] at hq
    | _ => rfl
  rw [this]
  exact (h.unmixed ho).atoms

/-- Every execution has the result of the operations one after the other. -/
theorem CollOk.any_schedule (h : CollOk n nb I O W link S R e mid c) (hs : c.transport.sound = true) {pre : Nat → List (Atom α)}
    (hpre : ∀ r, ∀ a ∈ pre r, a.onRank r) {l : List (CollOp × Nat)}
    (hl : Execution (Guarantee (collProg c) fun _ _ => False) CollOp.inOrder (collAct c pre) (collOps n) l) (m : Store α) :
    runSteps (collAct c pre) l m = runAtoms ((collOps n).flatMap (collAct c pre)) m := by
  apply schedule_eq (collOps_nodup n) _ _ (h.raceFree hs hpre) (h.anyOrder pre) hl
  · apply (collOps_sorted n).imp
    intro a b hab hg
    have := transGen_lt (coll_order hs) hg
    omega
  · intro a _ hg
    have := transGen_lt (coll_order hs) hg
    omega

/-- There is an execution. -/
theorem coll_executes (hs : c.transport.sound = true) (pre : Nat → List (Atom α)) (n : Nat) :
    ∃ l, Execution (Guarantee (collProg c) fun _ _ => False) CollOp.inOrder (collAct c pre) (collOps n) l := by
  refine ⟨_, schedule_refl _ _ (collOps_nodup n) ?_ ?_⟩
  · apply (collOps_sorted n).imp
    intro a b hab hg
    have := transGen_lt (coll_order hs) hg
    omega
  · intro a _ hg
    have := transGen_lt (coll_order hs) hg
    omega

end
end Verif
