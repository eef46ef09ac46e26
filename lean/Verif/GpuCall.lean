import Verif.GpuLocal

/-!
# Calls of reshapes on devices
-/

namespace Verif
variable {α : Type} {bin bout : List Box} {w : Box}

/-! ## The pending work of one rank -/

theorem runAtoms_other {r : Nat} : ∀ (l : List (Atom α)), (∀ a ∈ l, ∃ q, q ≠ r ∧ a.onRank q) → ∀ (m : Store α) b x,
    runAtoms l m (.mem r b x) = m (.mem r b x)
  | [], _, _, _, _ => rfl
  | a :: t, h, m, b, x => by
    show runAtoms t (a.run m) _ = _
    rw [runAtoms_other t (fun a' ha => h a' (by simp [ha])), a.frame]
    intro hw
    obtain ⟨q, hne, ho⟩ := h a (by simp)
    obtain ⟨b', x', he⟩ := ho _ (.inr hw)
    simp only [Loc.mem.injEq] at he
    exact hne he.1.symm

theorem runAtoms_own {r : Nat} : ∀ (l : List (Atom α)), (∀ a ∈ l, a.onRank r) → ∀ (m m' : Store α),
    (∀ b x, m (.mem r b x) = m' (.mem r b x)) → ∀ b x, runAtoms l m (.mem r b x) = runAtoms l m' (.mem r b x)
  | [], _, _, _, h, b, x => h b x
  | a :: t, h, m, m', hm, b, x => by
    show runAtoms t (a.run m) _ = runAtoms t (a.run m') _
    apply runAtoms_own t (fun a' ha => h a' (by simp [ha]))
    intro b x
    by_cases hw : a.writes (.mem r b x)
    · apply a.depends _ _ _ _ hw
      intro k hk
      obtain ⟨b', x', rfl⟩ := h a (by simp) k (.inl hk)
      exact hm b' x'
    · rw [a.frame _ _ hw, a.frame _ _ hw, hm]

/-- The memory of a rank after the pending work of all ranks. -/
theorem pending {pre : Nat → List (Atom α)} (hpre : ∀ r, ∀ a ∈ pre r, a.onRank r) {n r : Nat} (hr : r < n) (m : Store α) (b : DevBuf)
    (x : Int) : runAtoms ((List.range n).flatMap pre) m (.mem r b x) = runAtoms (pre r) m (.mem r b x) := by
  obtain ⟨A, B, h1, h2⟩ := flatMap_split List.nodup_range (List.mem_range.2 hr) pre
  have hA : ∀ y, (y ∈ A ∨ y ∈ B) → ∃ q, q ≠ r ∧ Atom.onRank y q := by
    intro y hy
    obtain ⟨q, -, hne, hq⟩ := h2 y hy
    exact ⟨q, hne, hpre q y hq⟩
  rw [h1, runAtoms_append, runAtoms_append, runAtoms_other B (fun a ha => hA a (.inr ha))]
  apply runAtoms_own _ (hpre r)
  exact fun b x => runAtoms_other A (fun a ha => hA a (.inl ha)) m b x

/-! ## The objects -/

theorem comm_no_plan (alg : Alg) (direct : Bool) (g : Nat → List Nat) (n : Nat) :
    (((List.range n).map (commShaper alg direct bin bout g)).any fun s => (Shaper.localPlan s).isSome) = false := by
  rw [List.any_eq_false]
  intro s hs
  obtain ⟨r, -, rfl⟩ := List.mem_map.1 hs
  unfold commShaper
  cases alg
  · cases objV direct bin bout g r <;> simp [Shaper.localPlan]
  · cases objA direct bin bout g r <;> simp [Shaper.localPlan]
  · simp [Shaper.localPlan]
  · simp [Shaper.localPlan]

/-- There is a reshape object on some rank. -/
def Needed (shs : List (Option Shaper)) : Prop := ∃ s ∈ shs, s ≠ none

theorem match_plan (hn : Needed ((List.range bin.length).map (matchShaper bin bout))) : directOf bin bout = false ∧
    (((List.range bin.length).map (matchShaper bin bout)).any fun s => (Shaper.localPlan s).isSome) = true := by
  obtain ⟨s, hs, hne⟩ := hn
  have hs' := hs
  obtain ⟨r, hr, rfl⟩ := List.mem_map.1 hs
  have hd : directOf bin bout = false := by
    by_contra hd
    rw [Bool.not_eq_false] at hd
    exact hne (by unfold matchShaper; rw [if_pos hd])
  refine ⟨hd, ?_⟩
  rw [List.any_eq_true]
  refine ⟨_, hs', ?_⟩
  unfold matchShaper at hne ⊢
  rw [hd] at hne ⊢
  simp only [Bool.false_eq_true, if_false] at hne ⊢
  split at hne
  · exact absurd rfl hne
  · rename_i he
    rw [if_neg he]
    rfl

theorem localAll (h : Redistribution bin bout w) (hm : boxesMatch bin bout = true) (hd : directOf bin bout = false) (k : DeviceCall)
    (hstr : 0 < k.stride) : LocalOk bin bout (localOf k ((List.range bin.length).map (matchShaper bin bout))) := by
  have hs := h.setup rfl
  have hn : (localOf k ((List.range bin.length).map (matchShaper bin bout))).n = bin.length := by simp [localOf]
  have hb := fun r (hr : r < bin.length) => boxesMatch_get hm hr
  have hpl : ∀ r, r < bin.length → (localOf k ((List.range bin.length).map (matchShaper bin bout))).plan r =
      if ((boxAt bout r).collide (boxAt bin r)).empty then none
      else some (transposePlan (boxAt bout r) ((boxAt bout r).collide (boxAt bin r)) (boxAt bin r).order) := by
    intro r hr
    simp only [localOf]
    rw [rankShaper_range hr]
    unfold matchShaper
    rw [hd]
    simp only [Bool.false_eq_true, if_false]
    split <;> rfl
  refine ⟨hn, ?_, ?_, ?_, ?_, ?_, ?_, hstr, ?_⟩
  · rw [hn]; exact fun r hr => (hb r hr).1.symm
  · rw [hn]; exact fun r hr => (hb r hr).2.symm
  · rw [hn]; exact fun r hr => hs.ordI hr
  · rw [hn]; exact fun r hr => hs.ordO hr
  · rw [hn]; exact hs.uniqIn
  · rw [hn]
    intro r hr hp p hpI
    rw [hpl r hr] at hp
    split at hp
    · rename_i he
      have hpO := (mem_congr_bounds (hb r hr).1 (hb r hr).2 p).1 hpI
      rw [Box.empty_false_of_mem (Box.mem_collide.2 ⟨hpO, hpI⟩)] at he
      exact absurd he (by simp)
    · exact absurd hp (by simp)
  · rw [hn]
    intro r hr p hp
    rw [hpl r hr] at hp
    split at hp
    · exact absurd hp (by simp)
    · rename_i he
      exact ⟨by simpa using he, (Option.some.inj hp).symm⟩

/-! ## The calls -/

/-- Every execution of a call moves every index. -/
theorem device_moved (h : Redistribution bin bout w) (alg : Alg) {shs : List (Option Shaper)} (hshs : shapersOf alg bin bout = .ok shs)
    (hneed : Needed shs) (k : DeviceCall) (hstr : 0 < k.stride) (hdone : ArrivalOrder bin bout k.done)
    (hsound : k.transport.sound = true) {pre : Nat → List (Atom α)} (hpre : ∀ r, ∀ a ∈ pre r, a.onRank r) {m m' : Store α}
    (hrun : DeviceRuns alg k shs pre m m') :
    Moved bin.length k.nb (boxAt bin) (boxAt bout) k.inplace (runAtoms ((List.range bin.length).flatMap pre) m) m' := by
  rcases shapersOf_cases h alg with ⟨hm, hs⟩ | ⟨hm, g, hg, hs⟩ <;> rw [hs] at hshs <;> obtain rfl := Except.ok.inj hshs
  · obtain ⟨hd, hany⟩ := match_plan hneed
    unfold DeviceRuns at hrun
    rw [if_pos hany] at hrun
    obtain ⟨l, hl, rfl⟩ := hrun
    have hok := localAll h hm hd k hstr
    have hln : ((List.range bin.length).map (matchShaper bin bout)).length = (localOf k ((List.range bin.length).map (matchShaper bin bout))).n := rfl
    rw [hln] at hl
    have := hok.run hpre hl m
    rw [hok.n] at this
    exact this
  · unfold DeviceRuns at hrun
    rw [comm_no_plan, if_neg (by simp)] at hrun
    have hlen : ((List.range bin.length).map (commShaper alg (directOf bin bout) bin bout g)).length = bin.length := by simp
    cases alg with
    | alltoallv =>
      obtain ⟨l, hl, rfl⟩ := hrun
      obtain ⟨_, _, _, _, _, hok⟩ := collV h hg k hstr
      rw [hlen] at hl
      exact hok.run hsound hpre hl m
    | alltoall =>
      obtain ⟨l, hl, rfl⟩ := hrun
      obtain ⟨_, _, _, _, _, hok⟩ := collA h hg k hstr
      rw [hlen] at hl
      exact hok.run hsound hpre hl m
    | p2p =>
      obtain ⟨l, hl, rfl⟩ := hrun
      obtain ⟨_, _, _, _, _, _, hok⟩ := p2pAll h .p2p (.inl rfl) g k hstr hdone
      have := hok.run hsound hpre hl m
      simp only [p2pOf, hlen] at this ⊢
      exact this
    | p2pPlined =>
      obtain ⟨l, hl, rfl⟩ := hrun
      obtain ⟨_, _, _, _, _, _, hok⟩ := p2pAll h .p2pPlined (.inr rfl) g k hstr hdone
      have := hok.run hsound hpre hl m
      simp only [p2pOf, hlen] at this ⊢
      exact this

/-- There is an execution and all have the same result. -/
theorem device_unique (h : Redistribution bin bout w) (alg : Alg) {shs : List (Option Shaper)} (hshs : shapersOf alg bin bout = .ok shs)
    (hneed : Needed shs) (k : DeviceCall) (hstr : 0 < k.stride) (hdone : ArrivalOrder bin bout k.done)
    (hsound : k.transport.sound = true) {pre : Nat → List (Atom α)} (hpre : ∀ r, ∀ a ∈ pre r, a.onRank r) (m : Store α) :
    ∃ m', DeviceRuns alg k shs pre m m' ∧ ∀ m'', DeviceRuns alg k shs pre m m'' → m'' = m' := by
  rcases shapersOf_cases h alg with ⟨hm, hs⟩ | ⟨hm, g, hg, hs⟩ <;> rw [hs] at hshs <;> obtain rfl := Except.ok.inj hshs
  · obtain ⟨hd, hany⟩ := match_plan hneed
    unfold DeviceRuns
    simp only [if_pos hany]
    obtain ⟨l, hl⟩ := local_executes (localOf k ((List.range bin.length).map (matchShaper bin bout))) pre
    refine ⟨_, ⟨l, hl, rfl⟩, ?_⟩
    rintro _ ⟨l', hl', rfl⟩
    exact ((localAll h hm hd k hstr).any_schedule hpre hl' m).trans ((localAll h hm hd k hstr).any_schedule hpre hl m).symm
  · unfold DeviceRuns
    simp only [comm_no_plan, Bool.false_eq_true, if_false]
    have hlen : ((List.range bin.length).map (commShaper alg (directOf bin bout) bin bout g)).length = bin.length := by simp
    cases alg with
    | alltoallv =>
      obtain ⟨_, _, _, _, _, hok⟩ := collV h hg k hstr
      dsimp only
      rw [hlen]
      obtain ⟨l, hl⟩ := coll_executes (c := collOf k ((List.range bin.length).map (commShaper .alltoallv (directOf bin bout) bin bout g)))
        hsound pre bin.length
      refine ⟨_, ⟨l, hl, rfl⟩, ?_⟩
      rintro _ ⟨l', hl', rfl⟩
      exact (hok.any_schedule hsound hpre hl' m).trans (hok.any_schedule hsound hpre hl m).symm
    | alltoall =>
      obtain ⟨_, _, _, _, _, hok⟩ := collA h hg k hstr
      dsimp only
      rw [hlen]
      obtain ⟨l, hl⟩ := coll_executes (c := collOf k ((List.range bin.length).map (commShaper .alltoall (directOf bin bout) bin bout g)))
        hsound pre bin.length
      refine ⟨_, ⟨l, hl, rfl⟩, ?_⟩
      rintro _ ⟨l', hl', rfl⟩
      exact (hok.any_schedule hsound hpre hl' m).trans (hok.any_schedule hsound hpre hl m).symm
    | p2p =>
      obtain ⟨_, _, _, _, _, _, hok⟩ := p2pAll h .p2p (.inl rfl) g k hstr hdone
      obtain ⟨l, hl⟩ := p2p_executes (fun r hr => (hok.done r hr).nodup_iff.2 List.nodup_range) pre
      refine ⟨_, ⟨l, hl, rfl⟩, ?_⟩
      rintro _ ⟨l', hl', rfl⟩
      exact (hok.any_schedule hsound hpre hl' m).trans (hok.any_schedule hsound hpre hl m).symm
    | p2pPlined =>
      obtain ⟨_, _, _, _, _, _, hok⟩ := p2pAll h .p2pPlined (.inr rfl) g k hstr hdone
      obtain ⟨l, hl⟩ := p2p_executes (fun r hr => (hok.done r hr).nodup_iff.2 List.nodup_range) pre
      refine ⟨_, ⟨l, hl, rfl⟩, ?_⟩
      rintro _ ⟨l', hl', rfl⟩
      exact (hok.any_schedule hsound hpre hl' m).trans (hok.any_schedule hsound hpre hl m).symm

/-- The sizes of the buffers of a call. -/
def callSizes (alg : Alg) (k : DeviceCall) (bin bout : List Box) (shs : List (Option Shaper)) : Nat → DevBuf → Int :=
  bufSizes k.nb (boxAt bin) (boxAt bout) (fun r => k.nb * wsOf (rankShaper shs r))
    (fun r => (hostSizes alg k.nb (rankShaper shs r)).1) (fun r => (hostSizes alg k.nb (rankShaper shs r)).2) k.inplace

theorem InsideMove.mono {n : Nat} {size size' : Nat → DevBuf → Int} (h : ∀ r, r < n → ∀ b, size r b ≤ size' r b) {x : Loc × Loc}
    (hx : InsideMove n size x) : InsideMove n size' x := by
  have : ∀ l : Loc, l.inside n size → l.inside n size' := by
    intro l hl
    cases l with
    | mem r b a => exact ⟨hl.1, hl.2.1, lt_of_lt_of_le hl.2.2 (h r hl.1 b)⟩
    | net _ _ _ => trivial
  exact ⟨this _ hx.1, this _ hx.2⟩

theorem p2p_inside (h : Redistribution bin bout w) (alg : Alg) (ha : alg = .p2p ∨ alg = .p2pPlined) (g : Nat → List Nat)
    (k : DeviceCall) (hstr : 0 < k.stride) (hdone : ArrivalOrder bin bout k.done) {x : Loc × Loc}
    {shs : List (Option Shaper)} (hshs : (List.range bin.length).map (commShaper alg (directOf bin bout) bin bout g) = shs)
    (hx : x ∈ (p2pOps (p2pOf k (alg == .p2pPlined) shs)).flatMap (p2pMoves (p2pOf k (alg == .p2pPlined) shs))) :
    InsideMove bin.length (callSizes alg k bin bout shs) x := by
  subst hshs
  obtain ⟨_, _, _, _, _, mid, hok⟩ := p2pAll h alg ha g k hstr hdone
  obtain ⟨o, ho, hx⟩ := List.mem_flatMap.1 hx
  have hb := hok.base
  have := hok.inside ho hx
  have hcn : (p2pOf k (alg == .p2pPlined) ((List.range bin.length).map (commShaper alg (directOf bin bout) bin bout g))).n = bin.length := by
    simp [p2pOf]
  rw [hcn] at this hb
  apply this.mono
  have hcomm : ∀ r, commShaper alg (directOf bin bout) bin bout g r = some (.p2p (directOf bin bout) (objP (directOf bin bout) bin bout r)) := by
    intro r
    rcases ha with rfl | rfl <;> rfl
  have hat : ∀ r, r < bin.length → rankShaper ((List.range bin.length).map (commShaper alg (directOf bin bout) bin bout g)) r =
      some (.p2p (directOf bin bout) (objP (directOf bin bout) bin bout r)) := by
    intro r hr
    rw [rankShaper_range hr, hcomm]
  intro r hr b
  have hbr := hb r hr
  cases b with
  | src => exact le_rfl
  | dst => exact le_rfl
  | ws =>
    simp only [callSizes, bufSizes, hat r hr, hcomm]
    exact le_rfl
  | hs =>
    simp only [callSizes, bufSizes, hat r hr, hostSizes, p2pOf, Shaper.pointToPoint]
    exact le_rfl
  | hr =>
    simp only [p2pOf, hat r hr, Shaper.pointToPoint] at hbr
    simp only [callSizes, bufSizes, hat r hr, hcomm, hostSizes, wsOf, Shaper.sizeWorkspace]
    rw [← hbr]
    apply le_of_eq
    ring

/-- All accesses of a call are inside the buffers. -/
theorem device_inside (h : Redistribution bin bout w) (alg : Alg) {shs : List (Option Shaper)} (hshs : shapersOf alg bin bout = .ok shs)
    (hneed : Needed shs) (k : DeviceCall) (hstr : 0 < k.stride) (hdone : ArrivalOrder bin bout k.done) :
    ∀ x ∈ deviceMoves alg k shs, InsideMove bin.length (callSizes alg k bin bout shs) x := by
  rcases shapersOf_cases h alg with ⟨hm, hs⟩ | ⟨hm, g, hg, hs⟩ <;> rw [hs] at hshs <;> obtain rfl := Except.ok.inj hshs
  · obtain ⟨hd, hany⟩ := match_plan hneed
    unfold deviceMoves
    rw [if_pos hany]
    intro x hx
    obtain ⟨o, ho, hx⟩ := List.mem_flatMap.1 hx
    have hok := localAll h hm hd k hstr
    have := hok.inside (W := fun r => k.nb * wsOf (rankShaper ((List.range bin.length).map (matchShaper bin bout)) r))
      (H1 := fun r => (hostSizes alg k.nb (rankShaper ((List.range bin.length).map (matchShaper bin bout)) r)).1)
      (H2 := fun r => (hostSizes alg k.nb (rankShaper ((List.range bin.length).map (matchShaper bin bout)) r)).2) ?_ ho hx
    · rw [hok.n] at this
      exact this
    · intro r hr hp
      rw [Option.isSome_iff_exists] at hp
      obtain ⟨p, hp⟩ := hp
      have he := hok.entries hr hp
      rw [hok.n] at hr
      have hc0 := Box.count_nonneg (boxAt bout r)
      apply mul_le_mul_of_nonneg_left _ (by positivity)
      simp only [localOf] at hp
      cases hsh : rankShaper ((List.range bin.length).map (matchShaper bin bout)) r with
      | none => rw [hsh] at hp; simp [Shaper.localPlan] at hp
      | some s =>
        rw [hsh] at hp
        cases s with
        | transpose q =>
          simp only [Shaper.localPlan, Option.some.injEq] at hp
          subst hp
          unfold PackPlan.entries at he
          simp only [wsOf, Shaper.sizeWorkspace]
          omega
        | alltoall _ _ => simp [Shaper.localPlan] at hp
        | alltoallv _ _ => simp [Shaper.localPlan] at hp
        | p2p _ _ => simp [Shaper.localPlan] at hp
  · unfold deviceMoves
    rw [comm_no_plan, if_neg (by simp)]
    have hlen : ((List.range bin.length).map (commShaper alg (directOf bin bout) bin bout g)).length = bin.length := by simp
    have hsize : ∀ r, r < bin.length → wsOf (commShaper alg (directOf bin bout) bin bout g r) =
        wsOf (rankShaper ((List.range bin.length).map (commShaper alg (directOf bin bout) bin bout g)) r) := by
      intro r hr
      rw [rankShaper_range hr]
    intro x hx
    cases alg with
    | alltoallv =>
      obtain ⟨_, _, _, _, _, hok⟩ := collV h hg k hstr
      dsimp only at hx
      rw [hlen] at hx
      obtain ⟨o, ho, hx⟩ := List.mem_flatMap.1 hx
      apply (hok.inside ho hx).mono
      intro r hr b
      cases b with
      | src => exact le_rfl
      | dst => exact le_rfl
      | ws => simp only [callSizes, bufSizes, hsize r hr]; exact le_rfl
      | hs =>
        simp only [callSizes, bufSizes, hostSizes, collOf, rankShaper_range hr, commShaper]
        cases objV (directOf bin bout) bin bout g r <;> exact le_rfl
      | hr =>
        simp only [callSizes, bufSizes, hostSizes, collOf, rankShaper_range hr, commShaper]
        cases objV (directOf bin bout) bin bout g r <;> exact le_rfl
    | alltoall =>
      obtain ⟨_, _, _, _, _, hok⟩ := collA h hg k hstr
      dsimp only at hx
      rw [hlen] at hx
      obtain ⟨o, ho, hx⟩ := List.mem_flatMap.1 hx
      apply (hok.inside ho hx).mono
      intro r hr b
      cases b with
      | src => exact le_rfl
      | dst => exact le_rfl
      | ws => simp only [callSizes, bufSizes, hsize r hr]; exact le_rfl
      | hs =>
        simp only [callSizes, bufSizes, hostSizes, collOf, rankShaper_range hr, commShaper]
        cases objA (directOf bin bout) bin bout g r <;> exact le_rfl
      | hr =>
        simp only [callSizes, bufSizes, hostSizes, collOf, rankShaper_range hr, commShaper]
        cases objA (directOf bin bout) bin bout g r <;> exact le_rfl
    | p2p => exact p2p_inside h .p2p (.inl rfl) g k hstr hdone rfl hx
    | p2pPlined => exact p2p_inside h .p2pPlined (.inr rfl) g k hstr hdone rfl hx

end Verif
