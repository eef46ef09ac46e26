import Verif.RankFlow

/-!
# A reshape of all the ranks
-/

namespace Verif
variable {α β γ : Type}

/-! ## Ranks without a reshape object -/

section
variable {bin bout : List Box} {w : Box}

/-- Without a reshape object the two boxes have the same indexes in the same places. -/
theorem null_layout (h : Redistribution bin bout w) (alg : Alg) {shs : List (Option Shaper)}
    (hs : shapersOf alg bin bout = .ok shs) {r : Nat} (hn : shs[r]? = some none) : SameLayout (boxAt bin r) (boxAt bout r) := by
  rcases shapersOf_cases h alg with ⟨hm, e⟩ | ⟨hm, g, hg, e⟩
  · rw [hs] at e
    rw [Except.ok.inj e] at hn
    obtain ⟨hr, hn⟩ := range_map_get.1 hn
    have bounds := boxesMatch_get hm hr
    have hmem := mem_congr_bounds bounds.1 bounds.2
    unfold matchShaper at hn
    by_cases hd : directOf bin bout = true
    · refine ⟨hmem, fun p hp => offset_congr bounds.1 bounds.2 ?_ p⟩
      exact (h.setup rfl).same hd _ (boxAt_mem hr) _ (boxAt_mem (by rw [h.length]; exact hr)) ⟨p, hp, (hmem p).1 hp⟩
    · rw [if_neg hd] at hn
      split at hn
      · rename_i he
        have hb' : ∀ p : A3 Int, p ∉ boxAt bout r := by
          intro p hp
          have : p ∈ (boxAt bout r).collide (boxAt bin r) := by
            rw [Box.mem_collide]
            exact ⟨hp, (hmem p).2 hp⟩
          rw [Box.empty_false_of_mem this] at he
          simp at he
        exact sameLayout_empty (fun p hp => hb' p ((hmem p).1 hp)) hb'
      · simp at hn
  · rw [hs] at e
    rw [Except.ok.inj e] at hn
    obtain ⟨hr, hn⟩ := range_map_get.1 hn
    have hgr : g r = [] := by
      unfold commShaper objV objA at hn
      by_contra hgr
      cases alg <;> simp [hgr] at hn
    obtain ⟨h1, h2⟩ := no_group h hg hr hgr
    exact sameLayout_empty h1 h2

/-- If another rank has a reshape object then a rank without has no indexes. -/
theorem null_mixed (h : Redistribution bin bout w) (alg : Alg) {shs : List (Option Shaper)}
    (hs : shapersOf alg bin bout = .ok shs) {r q : Nat} {sh : Shaper} (hn : shs[r]? = some none) (hq : shs[q]? = some (some sh)) :
    (∀ p : A3 Int, p ∉ boxAt bin r) ∧ ∀ p : A3 Int, p ∉ boxAt bout r := by
  rcases shapersOf_cases h alg with ⟨hm, e⟩ | ⟨hm, g, hg, e⟩
  · rw [hs] at e
    rw [Except.ok.inj e] at hn hq
    obtain ⟨hr, hn⟩ := range_map_get.1 hn
    obtain ⟨hr', hq⟩ := range_map_get.1 hq
    have bounds := boxesMatch_get hm hr
    have hmem := mem_congr_bounds bounds.1 bounds.2
    unfold matchShaper at hn hq
    by_cases hd : directOf bin bout = true
    · rw [if_pos hd] at hq; cases hq
    · rw [if_neg hd] at hn
      split at hn
      · rename_i he
        have hb' : ∀ p : A3 Int, p ∉ boxAt bout r := by
          intro p hp
          have : p ∈ (boxAt bout r).collide (boxAt bin r) := by
            rw [Box.mem_collide]
            exact ⟨hp, (hmem p).2 hp⟩
          rw [Box.empty_false_of_mem this] at he
          simp at he
        exact ⟨fun p hp => hb' p ((hmem p).1 hp), hb'⟩
      · simp at hn
  · rw [hs] at e
    rw [Except.ok.inj e] at hn
    obtain ⟨hr, hn⟩ := range_map_get.1 hn
    have hgr : g r = [] := by
      unfold commShaper objV objA at hn
      by_contra hgr
      cases alg <;> simp [hgr] at hn
    exact no_group h hg hr hgr

end

/-! ## The stage -/

/-- The boxes of one rank. -/
def trackOf (ins outs : Fin 4 → List Box) (F : Fin 4 → Field α β) (r : Nat) : Track α β :=
  ⟨fun i => boxAt (ins i) r, fun i => boxAt (outs i) r, F⟩

/-- The rank has not gone past reshape `i`, and has no reshape to do before. -/
def Waiting (K : Kernel α β) (E : Env) (c : Case) (T : Track α β) (m0 : Mem α β) (i : Nat) (prog : List Instr) (m : Mem α β) : Prop :=
  ∃ n loc, n ≤ 2 * i + 1 ∧ (∀ a : Nat, n ≤ 2 * a + 1 → a < i → c.s a = false) ∧ Stays m0 m ∧
    flow c (schedule.drop n) loc prog = true ∧ Located K E c (posBox T n) (posField T n) loc m

/-- The arguments of a reshape. -/
def Arguments (K : Kernel α β) (E : Env) (c : Case) (T : Track α β) (i : Fin 4) (m : Mem α β) (src dst : Buf) : Prop :=
  ∃ loc, Located K E c (T.A i) (T.F i) loc m ∧ c.reshapeOk i loc src dst = true

/-- The reshape has the right arrays. -/
def PortFine (K : Kernel α β) (port : Port α β γ) (E : Env) (c : Case) (T : Track α β) (i : Fin 4) (m0 : Mem α β)
    (G : Nat → A3 Int → γ) (sh : Shaper) : Prop :=
  ∀ m src dst, Stays m0 m → Arguments K E c T i m src dst → ∃ a, port.arrays m (src, dst) = some a ∧
    E.nb * (T.A i).points.card ≤ a.src.length ∧ E.nb * (T.B i).points.card ≤ a.dst.length ∧ HoldsBatch (T.A i) E.nb a.src G ∧
    E.nb * sh.sizeWorkspace ≤ a.ws.length ∧ ∀ d, d.length = a.dst.length → HoldsBatch (T.B i) E.nb d G →
      ∃ m', port.put m (src, dst) d = .ok m' ∧ Stays m m' ∧ Located K E c (T.B i) (T.F i) (some dst) m'

/-- The state of all the ranks in front of reshape `i`. -/
def Inv (K : Kernel α β) (env : Nat → Env) (cs : Nat → Case) (T : Nat → Track α β) (m0s : List (Mem α β)) (i : Nat) (sts : State α β) : Prop :=
  sts.length = m0s.length ∧ ∀ (r : Nat) m0 x, m0s[r]? = some m0 → sts[r]? = some x → Waiting K (env r) (cs r) (T r) m0 i x.1 x.2

theorem stage_ok {K : Kernel α β} {env : Nat → Env} {cs : Nat → Case} {ins outs : Fin 4 → List Box} {F : Fin 4 → Field α β}
    {m0s : List (Mem α β)} {i : Fin 4} {w : Box} {alg : Alg} {shs : List (Option Shaper)} {nb : Nat}
    (hR : Redistribution (ins i) (outs i) w) (hshs : shapersOf alg (ins i) (outs i) = .ok shs) (hn : m0s.length = (ins i).length)
    (hrank : ∀ (r : Nat) m0, m0s[r]? = some m0 → RankOk K (env r) (cs r) (trackOf ins outs F r) m0)
    (hnb : ∀ r, (env r).nb = nb) (hs : ∀ (r : Nat) sh, shs[r]? = some sh → (cs r).s i = sh.isSome)
    {port : Nat → Port α β γ} {G : Nat → A3 Int → γ}
    (hport : ∀ (r : Nat) m0 sh, m0s[r]? = some m0 → shs[r]? = some (some sh) →
      PortFine K (port r) (env r) (cs r) (trackOf ins outs F r) i m0 G sh)
    {stride : Nat} (hstr : 0 < stride) {done : Nat → List Nat} (hdone : ArrivalOrder (ins i) (outs i) done) {sts : State α β}
    (hw : Inv K env cs (trackOf ins outs F) m0s i sts) :
    ∃ sts', runStage K env port i stride nb done shs sts = .ok sts' ∧ Inv K env cs (trackOf ins outs F) m0s (i + 1) sts' := by
  have hl : shs.length = (ins i).length := by
    rcases shapersOf_cases hR alg with ⟨-, e⟩ | ⟨-, g, -, e⟩
    · rw [hshs] at e; rw [Except.ok.inj e]; simp
    · rw [hshs] at e; rw [Except.ok.inj e]; simp
  -- a rank without this reshape
  have wait : ∀ {r : Nat} {m0 : Mem α β} {x : List Instr × Mem α β}, shs[r]? = some none → m0s[r]? = some m0 → sts[r]? = some x →
      Waiting K (env r) (cs r) (trackOf ins outs F r) m0 (i + 1) x.1 x.2 := by
    intro r m0 x h1 h2 h3
    obtain ⟨n, loc, hle, hq, hst, hf, hloc⟩ := hw.2 r m0 x h2 h3
    refine ⟨n, loc, by omega, fun a ha ha' => ?_, hst, hf, hloc⟩
    by_cases hai : a = i
    · subst hai; exact hs r none h1
    · exact hq a ha (by omega)
  unfold runStage
  by_cases hall : shs.all Option.isNone = true
  · rw [if_pos hall]
    refine ⟨sts, rfl, hw.1, fun r m0 x h1 h2 => ?_⟩
    have hr : r < shs.length := by rw [hl, ← hn]; exact (List.getElem?_eq_some_iff.1 h1).1
    refine wait (r := r) ?_ h1 h2
    have := List.all_eq_true.1 hall _ (List.getElem_mem hr)
    rw [List.getElem?_eq_getElem hr, Option.isNone_iff_eq_none.1 this]
  · rw [if_neg hall]
    obtain ⟨q, sq, hq⟩ : ∃ q sq, shs[q]? = some (some sq) := by
      by_contra hc
      push Not at hc
      apply hall
      rw [List.all_eq_true]
      intro x hx
      obtain ⟨q, hq⟩ := List.mem_iff_getElem?.1 hx
      cases x with
      | none => rfl
      | some s => exact absurd hq (hc q s)
    -- up to the reshape
    obtain ⟨adv, hadv, hal, hav⟩ := mapRes_ok (f := stageAdvance K env i)
      (P := fun r x y => match x.1 with
        | none => y = (x.2.1, none, x.2.2)
        | some _ => ∃ src dst m0, m0s[r]? = some m0 ∧ y.2.1 = some (src, dst) ∧ Stays m0 y.2.2 ∧
          Arguments K (env r) (cs r) (trackOf ins outs F r) i y.2.2 src dst ∧ flow (cs r) (schedule.drop (2 * i + 2)) (some dst) y.1 = true)
      (shs.zip sts) 0 (by
        rintro r ⟨sh, x⟩ hx
        rw [List.getElem?_zip_eq_some] at hx
        obtain ⟨hsh, hx⟩ := hx
        dsimp only at hsh hx ⊢
        rw [Nat.zero_add]
        cases sh with
        | none => exact ⟨_, rfl, rfl⟩
        | some s =>
          have hr : r < m0s.length := by rw [← hw.1]; exact (List.getElem?_eq_some_iff.1 hx).1
          obtain ⟨m0, hm0⟩ : ∃ m0, m0s[r]? = some m0 := ⟨_, List.getElem?_eq_getElem hr⟩
          obtain ⟨n, loc, hle, hq, hst, hf, hloc⟩ := hw.2 r m0 x hm0 hx
          obtain ⟨t, src, dst, m', loc', h1, h2, h3, h4, h5⟩ := advance_ok (hrank r m0 hm0) (i := i) (hs r _ hsh) (2 * i + 1 - n) n
            (by omega) hq hst hf hloc
          refine ⟨(t, some (src, dst), m'), ?_, src, dst, m0, hm0, rfl, hst.trans h2, ⟨loc', h3, h4⟩, h5⟩
          simp only [stageAdvance, h1])
    simp only [Nat.zero_add] at hav
    have hadvl : adv.length = (ins i).length := by
      rw [hal, List.length_zip, hl, hw.1, hn, min_self]
    -- the arrays
    obtain ⟨arrs, harr, harl, harv⟩ := mapRes_ok (f := stageArrays port)
      (P := fun r x y => match x.2.1 with
        | none => y = ⟨[], [], []⟩
        | some sd => (port r).arrays x.2.2 sd = some y)
      adv 0 (by
        rintro r ⟨t, osd, m⟩ hx
        rw [Nat.zero_add]
        cases osd with
        | none => exact ⟨_, rfl, rfl⟩
        | some sd =>
          have hr : r < adv.length := (List.getElem?_eq_some_iff.1 hx).1
          have hr1 : r < shs.length := by omega
          have hr2 : r < sts.length := by rw [hw.1, hn]; omega
          have hz : (shs.zip sts)[r]? = some (shs[r], sts[r]) := by
            rw [List.getElem?_zip_eq_some]; exact ⟨List.getElem?_eq_getElem hr1, List.getElem?_eq_getElem hr2⟩
          obtain ⟨y, hy, hP⟩ := hav r _ hz
          rw [hx] at hy
          obtain rfl := Option.some.inj hy
          cases hsh : shs[r] with
          | none => rw [hsh] at hP; simp at hP
          | some sh =>
            rw [hsh] at hP
            obtain ⟨src, dst, m0, hm0, hsd, hst, harg, -⟩ := hP
            obtain rfl := Option.some.inj hsd
            obtain ⟨a, ha, -⟩ := hport r m0 sh hm0 (by rw [List.getElem?_eq_getElem hr1, hsh]) m src dst hst harg
            exact ⟨a, by simp only [stageArrays, ha], ha⟩)
    simp only [Nat.zero_add] at harv
    -- what is known about the arrays of one rank
    have facts : ∀ (r : Nat) a, arrs[r]? = some a → ∃ sh m0 x y, shs[r]? = some sh ∧ m0s[r]? = some m0 ∧ sts[r]? = some x ∧
        adv[r]? = some y ∧ (sh = none → a = ⟨[], [], []⟩ ∧ y = (x.1, none, x.2)) ∧
        ∀ s, sh = some s → ∃ src dst, y.2.1 = some (src, dst) ∧ Stays m0 y.2.2 ∧
          Arguments K (env r) (cs r) (trackOf ins outs F r) i y.2.2 src dst ∧
          flow (cs r) (schedule.drop (2 * i + 2)) (some dst) y.1 = true ∧ (port r).arrays y.2.2 (src, dst) = some a := by
      intro r a ha
      have hr : r < arrs.length := (List.getElem?_eq_some_iff.1 ha).1
      have hr1 : r < shs.length := by omega
      have hr2 : r < sts.length := by rw [hw.1, hn]; omega
      have hr3 : r < m0s.length := by omega
      have hz : (shs.zip sts)[r]? = some (shs[r], sts[r]) := by
        rw [List.getElem?_zip_eq_some]; exact ⟨List.getElem?_eq_getElem hr1, List.getElem?_eq_getElem hr2⟩
      obtain ⟨y, hy, hP⟩ := hav r _ hz
      obtain ⟨a', ha', hPa⟩ := harv r y hy
      rw [ha] at ha'
      obtain rfl := Option.some.inj ha'
      refine ⟨shs[r], m0s[r], sts[r], y, List.getElem?_eq_getElem hr1, List.getElem?_eq_getElem hr3, List.getElem?_eq_getElem hr2, hy, ?_, ?_⟩
      · intro hsh
        rw [hsh] at hP
        have hP : y = (sts[r].1, none, sts[r].2) := hP
        subst hP
        exact ⟨hPa, rfl⟩
      · intro s hsh
        rw [hsh] at hP
        obtain ⟨src, dst, m0, hm0, hsd, hst, harg, hf⟩ := hP
        rw [List.getElem?_eq_getElem hr3] at hm0
        obtain rfl := Option.some.inj hm0
        rw [hsd] at hPa
        exact ⟨src, dst, hsd, hst, harg, hf, hPa⟩
    have boxes : ∀ {l : List Box} {r : Nat} {b : Box}, l[r]? = some b → b = boxAt l r := by
      intro l r b hb
      have := boxAt_get (List.getElem?_eq_some_iff.1 hb).1
      rw [hb] at this; exact Option.some.inj this
    have getArr : ∀ {δ : Type} {f : Arrays γ → δ} {r : Nat} {x : δ}, (arrs.map f)[r]? = some x → ∃ a, arrs[r]? = some a ∧ x = f a := by
      intro δ f r x hx
      rw [List.getElem?_map, Option.map_eq_some_iff] at hx
      obtain ⟨a, h1, rfl⟩ := hx
      exact ⟨a, h1, rfl⟩
    -- the reshape
    have key : ∀ (r : Nat) a, arrs[r]? = some a → nb * (boxAt (ins i) r).points.card ≤ a.src.length ∧
        nb * (boxAt (outs i) r).points.card ≤ a.dst.length ∧ HoldsBatch (boxAt (ins i) r) nb a.src G ∧
        ∀ sh, shs[r]? = some (some sh) → nb * sh.sizeWorkspace ≤ a.ws.length := by
      intro r a ha
      obtain ⟨sh, m0, x, y, hsh, hm0, hx, hy, hnone, hsome⟩ := facts r a ha
      cases sh with
      | none =>
        obtain ⟨e1, e2⟩ := null_mixed hR alg hshs hsh hq
        obtain ⟨rfl, -⟩ := hnone rfl
        refine ⟨by rw [card_empty e1]; simp, by rw [card_empty e2]; simp, holds_of_empty e1, fun s hs' => ?_⟩
        rw [hsh] at hs'; cases Option.some.inj hs'
      | some s =>
        obtain ⟨src, dst, hsd, hst, harg, hf, harr'⟩ := hsome s rfl
        obtain ⟨a', ha', p1, p2, p3, p4, -⟩ := hport r m0 s hm0 hsh _ src dst hst harg
        rw [harr'] at ha'
        obtain rfl := Option.some.inj ha'
        rw [hnb] at p1 p2 p3 p4
        refine ⟨p1, p2, p3, fun s' hs' => ?_⟩
        rw [hsh] at hs'
        obtain rfl := Option.some.inj (Option.some.inj hs')
        exact p4
    have ready : Ready (ins i) (outs i) nb (arrs.map Arrays.src) (arrs.map Arrays.dst) G := by
      refine ⟨by simp; omega, by simp; omega, ?_, ?_, ?_⟩
      · intro r b src hb hsrc
        obtain ⟨a, ha, rfl⟩ := getArr hsrc
        rw [boxes hb]; exact (key r a ha).1
      · intro r b dst hb hdst
        obtain ⟨a, ha, rfl⟩ := getArr hdst
        rw [boxes hb]; exact (key r a ha).2.1
      · intro r b src hb hsrc
        obtain ⟨a, ha, rfl⟩ := getArr hsrc
        rw [boxes hb]; exact (key r a ha).2.2.1
    obtain ⟨dsts, hre, hdl, hdv⟩ := reshape_main hR alg hstr nb hdone
      (stageInplace env adv) ready hshs (fun r sh m h1 h2 => (key r m h2).2.2.2 sh h1)
    -- the arrays afterwards
    obtain ⟨sts', hput, hpl, hpv⟩ := mapRes_ok (f := stagePut port)
      (P := fun r _ y => ∀ m0, m0s[r]? = some m0 → Waiting K (env r) (cs r) (trackOf ins outs F r) m0 (i + 1) y.1 y.2)
      (adv.zip dsts) 0 (by
        rintro r ⟨y, d⟩ hyd
        rw [List.getElem?_zip_eq_some] at hyd
        obtain ⟨hy, hd⟩ := hyd
        dsimp only at hy hd ⊢
        rw [Nat.zero_add]
        have hr : r < arrs.length := by rw [harl]; exact (List.getElem?_eq_some_iff.1 hy).1
        obtain ⟨sh, m0, x, y', hsh, hm0, hx, hy', hnone, hsome⟩ := facts r _ (List.getElem?_eq_getElem hr)
        rw [hy] at hy'
        obtain rfl := Option.some.inj hy'
        cases sh with
        | none =>
          obtain ⟨-, rfl⟩ := hnone rfl
          refine ⟨_, rfl, fun m0' hm0' => ?_⟩
          exact wait hsh hm0' hx
        | some s =>
          obtain ⟨src, dst, hsd, hst, harg, hf, harr'⟩ := hsome s rfl
          obtain ⟨a', ha', p1, p2, p3, p4, p5⟩ := hport r m0 s hm0 hsh _ src dst hst harg
          rw [harr'] at ha'
          obtain rfl := Option.some.inj ha'
          obtain ⟨d', hd', hlen, -, hhold, -⟩ := hdv r _ _ _ (boxAt_get (l := outs i) (r := r) (by rw [hR.length]; omega))
            (List.getElem?_eq_getElem hr) hsh
          rw [hd] at hd'
          obtain rfl := Option.some.inj hd'
          obtain ⟨m', hm', hst', hloc⟩ := p5 d hlen (by rw [hnb]; exact hhold (by simp))
          refine ⟨(y.1, m'), ?_, fun m0' hm0' => ?_⟩
          · simp only [stagePut, hsd, hm']
          · rw [hm0] at hm0'
            obtain rfl := Option.some.inj hm0'
            refine ⟨2 * i + 2, some dst, by omega, fun a h1 h2 => by omega, hst.trans hst', hf, ?_⟩
            have e1 : posBox (trackOf ins outs F r) (2 * i + 2) = (trackOf ins outs F r).B i := by fin_cases i <;> rfl
            have e2 : posField (trackOf ins outs F r) (2 * i + 2) = (trackOf ins outs F r).F i := by fin_cases i <;> rfl
            rw [e1, e2]; exact hloc)
    simp only [Nat.zero_add] at hpv
    refine ⟨sts', ?_, ?_, ?_⟩
    · simp only [bind, Except.bind, hadv, harr, hre, hput]
    · rw [hpl, List.length_zip, hdl, hadvl, min_self, hn]
    · intro r m0 x hm0 hx
      have hr : r < sts'.length := (List.getElem?_eq_some_iff.1 hx).1
      rw [hpl] at hr
      obtain ⟨z, hz, hP⟩ := hpv r _ (List.getElem?_eq_getElem hr)
      rw [hx] at hz
      obtain rfl := Option.some.inj hz
      exact hP m0 hm0

end Verif
