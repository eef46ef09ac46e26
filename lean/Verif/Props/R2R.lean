import Verif.R2RCalls
import Verif.Props.Calls

/-!
# Properties of the sine and cosine transforms (C45 to C48)

The stock backend in exact arithmetic.  `GoodLength` is the guard of C34 for the length of the extended signal.
-/

namespace Verif
open Stock Finset

/-! ## One executor -/

section
variable {w : Nat} {junk : Tag → Int × Int → Scratch} {inp : Tag → Int × Int → Arr ℂ} {tag : Tag} {b : Box} {base : Int} {ws mem : List ℝ}
  {G : A3 Int → ℝ} {z : Trig} {d : Fin 3}

/-- The executor of a box whose fastest direction is `d`, for any contents of the workspace. -/
theorem stock_trig (hw : 0 < w) (ho : IsOrder b.order) (hb : b.empty = false) (hd : b.order.x = d) (hn : z.least ≤ b.extent d)
    (hN : GoodLength (z.gain (b.extent d))) (fwd : Bool) {need : Int} (hneed : workspaceR2R z b d = .ok need) (hws : need ≤ ws.length)
    (hG : Holds b mem base G) (h0 : 0 ≤ base) (hlen : base + b.count ≤ mem.length) :
    ∃ r, runR2R (stockKernel w junk inp) tag z fwd b d base ws mem = .ok r ∧ r.length = mem.length ∧
      Holds b r base (along b d (trig z fwd) G) ∧ ∀ a, (a < base ∨ base + b.count ≤ a) → rd r a = rd mem a := by
  subst hd
  have e : (b.osize 0).toNat = b.extent b.order.x := (extent_eq b b.order.x).symm
  refine runR2R_holds (b := b) (stockKernel_ok hw junk inp) (fun _ => rfl) (fun _ _ => rfl) ho hb ?_ ?_ fwd hneed hws hG h0 hlen
  · rw [e]; exact hn
  · rw [e]
    refine ⟨?_, hN⟩
    have h1 : 1 ≤ b.extent b.order.x := le_trans (by cases z <;> decide) hn
    cases z <;> simp only [Trig.gain, Trig.least] at hn ⊢ <;> omega

/-- The line of values through `p`. -/
def through (b : Box) (d : Fin 3) (G : A3 Int → ℝ) (p : A3 Int) (j : Nat) : ℝ := G (p.set d (b.low.get d + j))

theorem along_through (hn : z.least ≤ b.extent d) (fwd : Bool) : along b d (trig z fwd) G = fun p => trigOf z fwd (b.extent d) (through b d G p) (b.rel p d) := by
  funext p
  unfold along trig
  rw [lineOf_length, ← extent_eq]
  refine trigOf_congr z fwd hn (fun j hj => ?_) _
  unfold lineOf
  rw [getD_range_map _ _ (show j < (b.high.get d - b.low.get d + 1).toNat from hj)]
  rfl

/-- C45: the forward cosine transform of the stock backend is the DCT-II of every line, the backward one is twice the DCT-III. -/
theorem C45_cos_lines (hw : 0 < w) (ho : IsOrder b.order) (hb : b.empty = false) (hd : b.order.x = d) (hN : GoodLength (4 * b.extent d)) {need : Int}
    (hneed : workspaceR2R .cos b d = .ok need) (hws : need ≤ ws.length) (hG : Holds b mem base G) (h0 : 0 ≤ base) (hlen : base + b.count ≤ mem.length) :
    (∃ r, runR2R (stockKernel w junk inp) tag .cos true b d base ws mem = .ok r ∧ r.length = mem.length ∧
      Holds b r base (fun p => redft10 (b.extent d) (through b d G p) (b.rel p d)) ∧ ∀ a, (a < base ∨ base + b.count ≤ a) → rd r a = rd mem a) ∧
    (∃ r, runR2R (stockKernel w junk inp) tag .cos false b d base ws mem = .ok r ∧ r.length = mem.length ∧
      Holds b r base (fun p => 2 * redft01 (b.extent d) (through b d G p) (b.rel p d)) ∧ ∀ a, (a < base ∨ base + b.count ≤ a) → rd r a = rd mem a) := by
  have hn : Trig.cos.least ≤ b.extent d := by
    have := osize_pos hb 0
    have e : (b.osize 0).toNat = b.extent b.order.x := (extent_eq b b.order.x).symm
    rw [hd] at e
    show 1 ≤ _
    omega
  have h1 := stock_trig (junk := junk) (inp := inp) (tag := tag) hw ho hb hd hn hN true hneed hws hG h0 hlen
  have h2 := stock_trig (junk := junk) (inp := inp) (tag := tag) hw ho hb hd hn hN false hneed hws hG h0 hlen
  rw [along_through hn] at h1 h2
  exact ⟨h1, h2⟩

/-- C46: the forward sine transform of the stock backend is the DST-II of every line, the backward one is twice the DST-III. -/
theorem C46_sin_lines (hw : 0 < w) (ho : IsOrder b.order) (hb : b.empty = false) (hd : b.order.x = d) (hN : GoodLength (4 * b.extent d)) {need : Int}
    (hneed : workspaceR2R .sin b d = .ok need) (hws : need ≤ ws.length) (hG : Holds b mem base G) (h0 : 0 ≤ base) (hlen : base + b.count ≤ mem.length) :
    (∃ r, runR2R (stockKernel w junk inp) tag .sin true b d base ws mem = .ok r ∧ r.length = mem.length ∧
      Holds b r base (fun p => rodft10 (b.extent d) (through b d G p) (b.rel p d)) ∧ ∀ a, (a < base ∨ base + b.count ≤ a) → rd r a = rd mem a) ∧
    (∃ r, runR2R (stockKernel w junk inp) tag .sin false b d base ws mem = .ok r ∧ r.length = mem.length ∧
      Holds b r base (fun p => 2 * rodft01 (b.extent d) (through b d G p) (b.rel p d)) ∧ ∀ a, (a < base ∨ base + b.count ≤ a) → rd r a = rd mem a) := by
  have hn : Trig.sin.least ≤ b.extent d := by
    have := osize_pos hb 0
    have e : (b.osize 0).toNat = b.extent b.order.x := (extent_eq b b.order.x).symm
    rw [hd] at e
    show 1 ≤ _
    omega
  have h1 := stock_trig (junk := junk) (inp := inp) (tag := tag) hw ho hb hd hn hN true hneed hws hG h0 hlen
  have h2 := stock_trig (junk := junk) (inp := inp) (tag := tag) hw ho hb hd hn hN false hneed hws hG h0 hlen
  rw [along_through hn] at h1 h2
  exact ⟨h1, h2⟩

/-- C47: the forward cosine-I transform of the stock backend is the DCT-I of every line of at least two entries, the backward one is twice
the DCT-I. -/
theorem C47_cos1_lines (hw : 0 < w) (ho : IsOrder b.order) (hb : b.empty = false) (hd : b.order.x = d) (hn : 2 ≤ b.extent d)
    (hN : GoodLength (4 * (b.extent d - 1))) {need : Int}
    (hneed : workspaceR2R .cos1 b d = .ok need) (hws : need ≤ ws.length) (hG : Holds b mem base G) (h0 : 0 ≤ base) (hlen : base + b.count ≤ mem.length) :
    (∃ r, runR2R (stockKernel w junk inp) tag .cos1 true b d base ws mem = .ok r ∧ r.length = mem.length ∧
      Holds b r base (fun p => redft00 (b.extent d) (through b d G p) (b.rel p d)) ∧ ∀ a, (a < base ∨ base + b.count ≤ a) → rd r a = rd mem a) ∧
    (∃ r, runR2R (stockKernel w junk inp) tag .cos1 false b d base ws mem = .ok r ∧ r.length = mem.length ∧
      Holds b r base (fun p => 2 * redft00 (b.extent d) (through b d G p) (b.rel p d)) ∧ ∀ a, (a < base ∨ base + b.count ≤ a) → rd r a = rd mem a) := by
  have h1 := stock_trig (z := .cos1) (junk := junk) (inp := inp) (tag := tag) hw ho hb hd hn hN true hneed hws hG h0 hlen
  have h2 := stock_trig (z := .cos1) (junk := junk) (inp := inp) (tag := tag) hw ho hb hd hn hN false hneed hws hG h0 hlen
  rw [along_through (z := .cos1) hn] at h1 h2
  exact ⟨h1, h2⟩

/-- The workspace of an executor: the size is defined for all the lengths of the transform, and not for a cosine-I transform of length one,
whose extended signal has length zero. -/
theorem C45_workspace (ho : IsOrder b.order) (hb : b.empty = false) (hd : b.order.x = d) :
    (z.least ≤ b.extent d → ∃ need, 0 < need ∧ workspaceR2R z b d = .ok need) ∧
    (¬ z.least ≤ b.extent d → workspaceR2R z b d = .error .ub) := by
  subst hd
  have e : (b.osize 0).toNat = b.extent b.order.x := (extent_eq b b.order.x).symm
  have hpos := osize_pos hb 0
  constructor
  · intro hn
    refine ⟨_, ?_, workspaceR2R_eq ho hb (by rw [e]; exact hn)⟩
    have h1 := numLines_nonneg hb
    have h2 := mul_nonneg h1 (Int.natCast_nonneg (z.gain (b.osize 0).toNat))
    have h3 := mul_nonneg h1 (Int.natCast_nonneg (z.gain (b.osize 0).toNat / 2 + 1))
    omega
  · intro hn
    have hz : z = .cos1 := by
      cases z
      · exact absurd (show 1 ≤ _ by omega) hn
      · exact absurd (show 1 ≤ _ by omega) hn
      · rfl
    subst hz
    have h1 : b.osize 0 = 1 := by
      have : ¬ 2 ≤ b.extent b.order.x := hn
      omega
    unfold workspaceR2R
    have hem : (extendedBox .cos1 b).empty = true := by
      cases hem : (extendedBox .cos1 b).empty with
      | true => rfl
      | false =>
        exfalso
        obtain ⟨p, hp⟩ := Box.empty_false_iff_mem.1 hem
        have := Box.mem_def.1 hp (b.order 0)
        have hh : (extendedBox .cos1 b).high.get (b.order 0) = -1 := by
          unfold extendedBox
          simp only
          rw [A3.get_set_self, h1]; rfl
        have hl : (extendedBox .cos1 b).low.get (b.order 0) = 0 := by
          have : ∀ e : Fin 3, (A3.mk (0 : Int) 0 0).get e = 0 := by decide
          exact this _
        rw [hh, hl] at this
        omega
    simp only [hem, if_true]

end

/-! ## Whole calls -/

/-- An `fft3d` object of the backend `stock_cos`, `stock_sin` or `stock_cos1` on a valid geometry with at least one index in every direction,
at least two for `stock_cos1`. -/
structure StockR2R (z : Trig) (bin bout : List Box) (wi wo : Box) (opts : Opts) (ob : Object) : Prop where
  geo : Geometry bin bout none wi wo
  made : makeFft3d (.stockTrig z) bin bout opts = .ok ob
  defined : ∀ d, z.least ≤ wi.extent d
  lengths : ∀ d, GoodLength (z.gain (wi.extent d))

/-- The same for all the backends whose sine and cosine transforms extend the lines (`mkl_cos`, `cufft_cos` and so on); C69 has the
tables that tell them apart. -/
structure TrigObject (z : Trig) (bin bout : List Box) (wi wo : Box) (opts : Opts) (ob : Object) : Prop where
  geo : Geometry bin bout none wi wo
  made : makeFft3d (.stockTrig z) bin bout opts = .ok ob
  defined : ∀ d, z.least ≤ wi.extent d

theorem StockR2R.object {z : Trig} {bin bout : List Box} {wi wo : Box} {opts : Opts} {ob : Object} (S : StockR2R z bin bout wi wo opts ob) :
    TrigObject z bin bout wi wo opts ob := ⟨S.geo, S.made, S.defined⟩

/-- `workspace_size` of the executors. -/
def trigWork (e : Executor) : Int :=
  match workOf (some e) with
  | .ok n => n
  | .error _ => 0

theorem trigWork_nonneg (e : Executor) : 0 ≤ trigWork e := by
  unfold trigWork
  split
  · rename_i n h
    unfold workOf at h
    split at h
    · unfold workspaceR2R at h
      simp only at h
      split at h
      · cases h
      · rw [← Except.ok.inj h]
        have h1 := Box.count_nonneg
        rename_i z b d _ _
        have h1 := Box.count_nonneg (extendedBox z b)
        have h2 := Box.count_nonneg ((extendedBox z b).r2c d)
        omega
    · rw [← Except.ok.inj h]
  · exact le_rfl

/-- The part of the workspace for the executors of a rank is large enough (C44 tells where it is); it may hold anything. -/
def EnoughWork (ob : Object) (ws : Tag → List ℝ) : Prop :=
  ∀ (tag : Tag) e need, ob.fft.execs[tag.rank]? = some e → workOfRank e = .ok need → need ≤ (ws tag).length

/-- A call with real data: real numbers are multiplied with the factor. -/
noncomputable def performR2R (ob : Object) (K : Kernel ℝ Unit) (W : World ℝ Unit) (fwd : Bool) (nb : Nat) (inplace : Nat → Bool)
    (s : Scaling) (mems : List (Mem ℝ Unit)) : Res (List (Mem ℝ Unit)) :=
  ob.call K (fun x y => x * y) (fun _ u => u) W .same fwd nb inplace s mems

section
variable {z : Trig} {bin bout : List Box} {wi wo : Box} {opts : Opts} {ob : Object} {w : Nat} {junk : Tag → Int × Int → Scratch}
  {inp : Tag → Int × Int → Arr ℂ} {W : World ℝ Unit} {fwd : Bool} {nb : Nat} {inplace : Nat → Bool} {s : Scaling} {m0s : List (Mem ℝ Unit)}
  {ws : Tag → List ℝ}

/-- The boxes of the executors of a plan with reordering. -/
theorem trig_box {p : Plan} (geo : Geometry bin bout none wi wo) (hu : opts.useReorder = true) (h : planOperations bin bout none opts = .ok p)
    {r : Nat} (hr : r < bin.length) (x : Fin 3) (hb : (p.box r x).empty = false) :
    IsOrder (p.box r x).order ∧ (p.box r x).order.x = p.dirs x ∧ Spans (p.box r x) wi (p.dirs x) ∧
      (p.box r x).extent (p.dirs x) = wi.extent (p.dirs x) := by
  have hp := planFacts geo (fun h => absurd rfl h) h
  have hmem := boxAt_mem (l := p.outAt x.castSucc) (r := r) (by rw [hp.lenOut]; exact hr)
  have hs := hp.spans x _ hmem hb
  have hs : Spans (p.box r x) wi (p.dirs x) := by
    have := hp.complex.congr (p.dirs x)
    unfold worldAt at hs
    split at hs
    · exact hs
    · exact ⟨hs.1.trans this.1, hs.2.trans this.2⟩
  obtain ⟨h0, h1, h2⟩ := C17_reorder_contiguous geo hu (fun h => absurd rfl h) h
  have hex := Box.empty_false_iff_mem.1 hb
  refine ⟨(hp.redis x.castSucc).validOut _ hmem, ?_, hs, ?_⟩
  · match x with
    | 0 => exact h0 _ hmem hex
    | 1 => exact h1 _ hmem hex
    | 2 => exact h2 _ hmem hex
  · unfold Box.extent
    rw [hs.1, hs.2]

theorem setOptions_reorder (z : Trig) (opts : Opts) : ((Backend.stockTrig z).setOptions opts).useReorder = true := rfl

theorem workOfRank_ok {e : A3 (Option Executor)} {need : Int} (h : workOfRank e = .ok need) (x : Fin 3) :
    ∃ n, workOf (e.get x) = .ok n ∧ n ≤ need := by
  unfold workOfRank at h
  cases hx : workOf e.x with
  | error _ => rw [hx] at h; cases h
  | ok a =>
    cases hy : workOf e.y with
    | error _ => rw [hx, hy] at h; cases h
    | ok b =>
      cases hz : workOf e.z with
      | error _ => rw [hx, hy, hz] at h; cases h
      | ok c =>
        rw [hx, hy, hz] at h
        have h := Except.ok.inj h
        match x with
        | 0 => exact ⟨a, hx, by omega⟩
        | 1 => exact ⟨b, hy, by omega⟩
        | 2 => exact ⟨c, hz, by omega⟩

theorem mapRes_entries {β γ : Type} {f : Nat → β → Res γ} : ∀ (l : List β) (k : Nat) {rs : List γ}, mapRes f k l = .ok rs →
    ∀ (i : Nat) b, l[i]? = some b → ∃ c, f (k + i) b = .ok c
  | [], _, _, _, i, b, h => by simp at h
  | a :: t, k, rs, hrs, i, b, h => by
    simp only [mapRes] at hrs
    split at hrs
    · cases hrs
    · rename_i c hc
      split at hrs
      · cases hrs
      · rename_i cs hcs
        cases i with
        | zero => simp at h; subst h; exact ⟨c, hc⟩
        | succ i =>
          obtain ⟨c', h'⟩ := mapRes_entries t (k + 1) hcs i b (by simpa using h)
          exact ⟨c', by rw [← h']; congr 1; omega⟩

/-- What an object of the sine and cosine transforms consists of. -/
theorem made_work {bk : Backend} (h : makeFft3d bk bin bout opts = .ok ob) {r : Nat} {e : A3 (Option Executor)} (he : ob.fft.execs[r]? = some e) :
    ∃ need, workOfRank e = .ok need := by
  unfold makeFft3d at h
  cases hp : planOperations bin bout none (bk.setOptions opts) with
  | error e => rw [hp] at h; cases h
  | ok p =>
    rw [hp] at h
    simp only [bind, Except.bind] at h
    split at h
    · cases h
    · split at h
      · cases h
      · rename_i o _ _ l hl
        obtain rfl := Except.ok.inj h
        exact mapRes_entries _ 0 hl r e he

theorem baseFactor_trig (S : TrigObject z bin bout wi wo opts ob) : ob.baseFactor = 1 / (z.gain3 wi : ℝ) := by
  obtain ⟨hplan, hfam, hp, -, -, -, hc, -⟩ := makeFft3d_ok S.geo S.made
  obtain ⟨r, -, ok⟩ := planOperations_ok S.geo hplan
  have hs : ∀ d, ob.plan.fftSizes.get d = wi.extent d := by
    intro d
    rw [ok.sizes, extent_eq]
    have h1 := extent_pos S.geo d
    rw [extent_eq] at h1
    change 1 ≤ (wi.size.get d).toNat at h1
    change _ = ((wi.size.get d).toNat : Int)
    omega
  have hcount : (wi.count : ℝ) = wi.extent 0 * wi.extent 1 * wi.extent 2 := by
    have hne : wi.empty = false := by
      obtain ⟨q, hq⟩ := S.geo.nonempty
      exact Box.empty_false_of_mem hq
    have h : ∀ d, wi.size.get d = (wi.extent d : Int) := fun d => by rw [← hs d, ok.sizes]
    unfold Box.count
    rw [if_neg (by simp [hne])]
    rw [show wi.size 0 = _ from h 0, show wi.size 1 = _ from h 1, show wi.size 2 = _ from h 2]
    push_cast; rfl
  have hf : ob.family = .stock z := hfam
  unfold Object.baseFactor Trig.gain3
  rw [hf]
  have e0 := hs 0
  have e1 := hs 1
  have e2 := hs 2
  simp only [A3.get_zero, A3.get_one, A3.get_two] at e0 e1 e2
  have d0 := S.defined 0
  have d1 := S.defined 1
  have d2 := S.defined 2
  cases z with
  | cos => simp only [Trig.gain]; rw [hc, hcount]; push_cast; rw [div_div]; congr 1; ring
  | sin => simp only [Trig.gain]; rw [hc, hcount]; push_cast; rw [div_div]; congr 1; ring
  | cos1 =>
    simp only [Trig.gain]
    rw [e0, e1, e2]
    have c : ∀ n : Nat, 2 ≤ n → ((n - 1 : Nat) : ℝ) = (n : ℝ) - 1 := fun n hn => by rw [Nat.cast_sub (by omega)]; simp
    push_cast [c _ d0, c _ d1, c _ d2]
    congr 1
    ring

theorem scaleFactor_trig (S : TrigObject z bin bout wi wo opts ob) (hs : s ≠ .none) : ob.scaleFactor s = s.factor (z.gain3 wi) := by
  unfold Object.scaleFactor Scaling.factor
  rw [baseFactor_trig S]
  cases s with
  | none => exact absurd rfl hs
  | full => simp
  | symmetric => simp

/-- A call, for any arithmetic whose executors transform the lines. -/
theorem trig_call (S : TrigObject z bin bout wi wo opts ob) {K : Kernel ℝ Unit} {need : Executor → Int} (hneed : ∀ e, 0 ≤ need e)
    (hdo : ∀ r, r < bin.length → ∀ x, (ob.plan.box r x).empty = false →
      Does K r wi (trig z) (.trig z (ob.plan.box r x) (ob.plan.dirs x)) (ob.plan.box r x) [ob.plan.dirs x])
    (hW : WorldOk W ob.plan fwd) (hnb : 0 < nb) {g : Nat → A3 Int → ℝ}
    (ha : CallArrays (srcBoxes fwd bin bout) (dstBoxes fwd bin bout) false false (ob.sizeWorkspace need) nb inplace m0s (.inl g))
    (hsrc : SourceHolds (srcBoxes fwd bin bout) inplace) :
    ∃ ms, performR2R ob K W fwd nb inplace s m0s = .ok ms ∧
      Outcome (dstBoxes fwd bin bout) nb m0s ms (.inl fun j p => s.factor (z.gain3 wi) * trig3 z fwd wi (g j) p) := by
  obtain ⟨hplan, hfam, hp, e1, e2, -, hc, hset⟩ := makeFft3d_ok S.geo S.made
  obtain ⟨ms, h1, h2⟩ := call_one (K := K) (bk := .stockTrig z) (t := trig z) (mode := .same) (W := W) (m0s := m0s) (ws := need)
    ⟨rfl, rfl⟩ (fun _ _ => rfl) S.geo S.made ⟨by simp, by simp, fun _ => rfl⟩ hdo (G := .inl g) rfl hneed ha hW hnb (fun _ _ _ => rfl)
      (.inr fun r hr => source_empty hsrc (by rw [src_length S.geo]; exact hr))
  have e : fieldC2C K wi (trig z) (fun x => [ob.plan.dirs x]) .same fwd (.inl g) 3 = .inl fun j => trig3 z fwd wi (g j) := by
    unfold fieldC2C
    simp only [reduceCtorEq, false_and, if_false]
    rw [chain_trig3 hp.dirs z S.defined]
  rw [e] at h2
  obtain ⟨ms', c1, c2⟩ := call_scaled (ob := ob) (fun x y => x * y) (fun _ u => u) fwd s h2 (by rw [e1, e2])
    (by rw [ha.ranks, src_length S.geo, dst_length S.geo]) ha.outputSize (dst_order S.geo fwd)
  refine ⟨ms', ?_, ?_⟩
  · unfold performR2R Object.call
    rw [h1]
    exact c1
  · by_cases hs : s = .none
    · subst hs
      rw [if_pos rfl] at c2
      simpa [Scaling.factor] using c2
    · rw [if_neg hs, scaleFactor_trig S hs] at c2
      exact c2

/-- The executors of an object are there and have their workspace. -/
theorem trig_work (S : TrigObject z bin bout wi wo opts ob) {r : Nat} (hr : r < bin.length) (x : Fin 3) (hb : (ob.plan.box r x).empty = false) :
    ∃ e need m, ob.fft.execs[r]? = some e ∧ e.get x = some (.trig z (ob.plan.box r x) (ob.plan.dirs x)) ∧ workOfRank e = .ok need ∧
      workspaceR2R z (ob.plan.box r x) (ob.plan.dirs x) = .ok m ∧ m ≤ need := by
  obtain ⟨hplan, hfam, hp, e1, e2, -, hc, hset⟩ := makeFft3d_ok S.geo S.made
  have hex := hset.execs r hr
  obtain ⟨need', hn'⟩ := made_work S.made hex
  obtain ⟨m, hm, hm'⟩ := workOfRank_ok hn' x
  have hget : (executorsC2C (.stockTrig z) ob.plan.dirs (ob.plan.box r 0) (ob.plan.box r 1) (ob.plan.box r 2)
      (shaperAt ob.fft.fwd r 1).isSome (shaperAt ob.fft.fwd r 2).isSome).get x = some (.trig z (ob.plan.box r x) (ob.plan.dirs x)) := by
    rw [one_executors ⟨rfl, rfl⟩]
    have mk : ∀ b d, b.empty = false → makeExecutor b ((Backend.stockTrig z).one b d) = some (.trig z b d) := by
      intro b d hb
      unfold makeExecutor
      rw [if_neg (by simp [hb])]
      rfl
    match x, hb with
    | 0, hb => exact mk _ _ hb
    | 1, hb => exact mk _ _ hb
    | 2, hb => exact mk _ _ hb
  rw [hget] at hm
  exact ⟨_, need', m, hex, hget, hn', hm, hm'⟩

/-- The executors transform the lines, for any arithmetic of the Fourier transforms. -/
theorem trig_does_any (S : TrigObject z bin bout wi wo opts ob) {C : Type} {K : Kernel C ℝ} {good : Nat → Prop} {fft : Bool → List C → Nat → C}
    {r2c : List ℝ → Nat → C} {c2r : Nat → List C → Nat → ℝ} (hK : KernelOk K good fft r2c c2r) (hgood : ∀ d, good (z.gain (wi.extent d))) (hws : EnoughWork ob ws)
    {r : Nat} (hr : r < bin.length) (x : Fin 3) (hb : (ob.plan.box r x).empty = false) :
    Does (trigKernel K ws) r wi (K.trigLine r2c c2r z) (.trig z (ob.plan.box r x) (ob.plan.dirs x)) (ob.plan.box r x) [ob.plan.dirs x] := by
  obtain ⟨hplan, -⟩ := makeFft3d_ok S.geo S.made
  obtain ⟨q1, q2, q3, q4⟩ := trig_box S.geo (setOptions_reorder z opts) hplan hr x hb
  have hsz : ((ob.plan.box r x).size (ob.plan.dirs x)).toNat = wi.extent (ob.plan.dirs x) := by rw [← extent_eq, q4]
  refine does_any (good := good) hK q1 hb q2 q3 (by rw [hsz]; exact S.defined _) (by rw [hsz]; exact hgood _) ?_
  intro tag need htag hneed
  obtain ⟨e, need', m, he, -, hn', hm, hm'⟩ := trig_work S hr x hb
  have hle := hws tag e need' (by rw [htag]; exact he) hn'
  rw [hneed] at hm
  have := Except.ok.inj hm
  omega

/-- The executors transform the lines, for any arithmetic of the Fourier transforms that is right. -/
theorem trig_does (S : TrigObject z bin bout wi wo opts ob) {K : Kernel ℂ ℝ} {good : Nat → Prop} (hK : KernelOk K good dft r2c c2r)
    (hp : ∀ c, K.parts c = (c.re, c.im)) (hj : ∀ a b, K.join a b = ⟨a, b⟩) (hgood : ∀ d, good (z.gain (wi.extent d))) (hws : EnoughWork ob ws)
    {r : Nat} (hr : r < bin.length) (x : Fin 3) (hb : (ob.plan.box r x).empty = false) :
    Does (trigKernel K ws) r wi (trig z) (.trig z (ob.plan.box r x) (ob.plan.dirs x)) (ob.plan.box r x) [ob.plan.dirs x] := by
  obtain ⟨hplan, -⟩ := makeFft3d_ok S.geo S.made
  obtain ⟨q1, q2, q3, q4⟩ := trig_box S.geo (setOptions_reorder z opts) hplan hr x hb
  have hsz : ((ob.plan.box r x).size (ob.plan.dirs x)).toNat = wi.extent (ob.plan.dirs x) := by rw [← extent_eq, q4]
  refine does_trig (good := good) hK hp hj q1 hb q2 q3 (by rw [hsz]; exact S.defined _) (by rw [hsz]; exact hgood _) ?_
  intro tag need htag hneed
  obtain ⟨e, need', m, he, -, hn', hm, hm'⟩ := trig_work S hr x hb
  have hle := hws tag e need' (by rw [htag]; exact he) hn'
  rw [hneed] at hm
  have := Except.ok.inj hm
  omega

/-- C45, C46, C47, C48: a call of a sine or cosine transform computes the three dimensional transform of its kind, times the factor of
the scaling, for all the layouts, directions, batch sizes, for calls in place and out of place, and for any contents of the workspaces. -/
theorem C45_calls (S : StockR2R z bin bout wi wo opts ob) (hw : 0 < w) (hW : WorldOk W ob.plan fwd) (hnb : 0 < nb) (hws : EnoughWork ob ws)
    {g : Nat → A3 Int → ℝ}
    (ha : CallArrays (srcBoxes fwd bin bout) (dstBoxes fwd bin bout) false false (ob.sizeWorkspace trigWork) nb inplace m0s (.inl g))
    (hsrc : SourceHolds (srcBoxes fwd bin bout) inplace) :
    ∃ ms, performR2R ob (trigKernel (stockKernel w junk inp) ws) W fwd nb inplace s m0s = .ok ms ∧
      Outcome (dstBoxes fwd bin bout) nb m0s ms (.inl fun j p => s.factor (z.gain3 wi) * trig3 z fwd wi (g j) p) := by
  have hgood : ∀ d, 1 ≤ z.gain (wi.extent d) ∧ GoodLength (z.gain (wi.extent d)) := by
    intro d
    refine ⟨?_, S.lengths d⟩
    have := S.defined d
    cases z <;> simp only [Trig.gain, Trig.least] at this ⊢ <;> omega
  exact trig_call S.object trigWork_nonneg (fun r hr x hb => trig_does S.object (good := fun n => 1 ≤ n ∧ GoodLength n) (stockKernel_ok hw junk inp)
    (fun _ => rfl) (fun _ _ => rfl) hgood hws hr x hb) hW hnb ha hsrc

theorem gain3_pos (S : TrigObject z bin bout wi wo opts ob) : 0 < (z.gain3 wi : Int) := by
  have hg : ∀ d, 0 < z.gain (wi.extent d) := by
    intro d
    have := S.defined d
    cases z <;> simp only [Trig.gain, Trig.least] at this ⊢ <;> omega
  unfold Trig.gain3
  exact_mod_cast Nat.mul_pos (Nat.mul_pos (hg 0) (hg 1)) (hg 2)

theorem trig3_mul (z : Trig) (fwd : Bool) (v : Box) (c : ℝ) (G : A3 Int → ℝ) (p : A3 Int) : trig3 z fwd v (fun q => c * G q) p = c * trig3 z fwd v G p := by
  unfold trig3
  rw [Finset.mul_sum]
  exact sum_congr rfl fun q _ => by ring

/-- Two calls, the second one on the output of the first one. -/
theorem trig_round (S : TrigObject z bin bout wi wo opts ob) {K' : Kernel ℝ Unit} {need : Executor → Int} {W' : World ℝ Unit} {inplace' : Nat → Bool}
    {s' : Scaling} {g : Nat → A3 Int → ℝ} {ms : List (Mem ℝ Unit)} (ha : CallArrays bin bout false false (ob.sizeWorkspace need) nb inplace m0s (.inl g))
    (h2 : Outcome bout nb m0s ms (.inl fun j p => s.factor (z.gain3 wi) * trig3 z true wi (g j) p))
    (hback : ∀ m1s (g' : Nat → A3 Int → ℝ), CallArrays bout bin false false (ob.sizeWorkspace need) nb inplace' m1s (.inl g') →
      ∃ ms', performR2R ob K' W' false nb inplace' s' m1s = .ok ms' ∧
        Outcome bin nb m1s ms' (.inl fun j p => s'.factor (z.gain3 wi) * trig3 z false wi (g' j) p))
    (m1s : List (Mem ℝ Unit)) (hm1 : HasArrays bout bin false false (ob.sizeWorkspace need) nb inplace' m1s) (hcont : Continues inplace' ms m1s) :
    ∃ ms', performR2R ob K' W' false nb inplace' s' m1s = .ok ms' ∧
      Outcome bin nb m1s ms' (.inl fun j p => s'.factor (z.gain3 wi) * s.factor (z.gain3 wi) *
        (z.gain (wi.extent 0) * z.gain (wi.extent 1) * z.gain (wi.extent 2) : ℝ) * g j p) ∧
      (Inverse s s' → Outcome bin nb m1s ms' (.inl g)) := by
  have hlen : m0s.length = bout.length := by rw [ha.ranks]; exact S.geo.length.symm
  have hca := continue_arrays hm1 h2 hlen hcont
  obtain ⟨ms', h3, h4⟩ := hback m1s _ hca
  have h5 : Outcome bin nb m1s ms' (.inl fun j p => s'.factor (z.gain3 wi) * s.factor (z.gain3 wi) *
      (z.gain (wi.extent 0) * z.gain (wi.extent 1) * z.gain (wi.extent 2) : ℝ) * g j p) := by
    refine h4.congr S.geo.tilesIn (by rw [hm1.ranks]; exact S.geo.length) fun j _ p hp => ?_
    simp only [Field.val]
    rw [trig3_mul, trig3_inv z wi S.defined (g j) hp]
    unfold Trig.gain3
    push_cast
    congr 1
    ring
  refine ⟨ms', h3, h5, fun hinv => ?_⟩
  have hinv' := inverse_factor hinv (gain3_pos S)
  refine h5.congr S.geo.tilesIn (by rw [hm1.ranks]; exact S.geo.length) fun j _ p hp => ?_
  simp only [Field.val]
  have e : (((z.gain3 wi : Nat) : Int) : ℝ) = (z.gain (wi.extent 0) * z.gain (wi.extent 1) * z.gain (wi.extent 2) : ℝ) := by
    unfold Trig.gain3; push_cast; rfl
  rw [← e, hinv', one_mul]

/-- C48: backward after forward multiplies the data with `4 n` (`4 (n - 1)` for the cosine-I transform) for every direction and with
the two factors; the scalings `full` and `symmetric` invert exactly that. -/
theorem C48_roundtrip (S : StockR2R z bin bout wi wo opts ob) (hw : 0 < w) {W' : World ℝ Unit} (hW : WorldOk W ob.plan true) (hW' : WorldOk W' ob.plan false)
    (hnb : 0 < nb) {ws' : Tag → List ℝ} (hws : EnoughWork ob ws) (hws' : EnoughWork ob ws') {g : Nat → A3 Int → ℝ} {inplace' : Nat → Bool} {s' : Scaling}
    (ha : CallArrays bin bout false false (ob.sizeWorkspace trigWork) nb inplace m0s (.inl g))
    (hs : SourceHolds bin inplace) (hs' : SourceHolds bout inplace') :
    ∃ ms, performR2R ob (trigKernel (stockKernel w junk inp) ws) W true nb inplace s m0s = .ok ms ∧
      ∀ m1s, HasArrays bout bin false false (ob.sizeWorkspace trigWork) nb inplace' m1s → Continues inplace' ms m1s →
        ∃ ms', performR2R ob (trigKernel (stockKernel w junk inp) ws') W' false nb inplace' s' m1s = .ok ms' ∧
          Outcome bin nb m1s ms' (.inl fun j p => s'.factor (z.gain3 wi) * s.factor (z.gain3 wi) *
            (z.gain (wi.extent 0) * z.gain (wi.extent 1) * z.gain (wi.extent 2) : ℝ) * g j p) ∧
          (Inverse s s' → Outcome bin nb m1s ms' (.inl g)) := by
  obtain ⟨ms, h1, h2⟩ := C45_calls (junk := junk) (inp := inp) (s := s) (fwd := true) S hw hW hnb hws ha hs
  exact ⟨ms, h1, trig_round S.object ha h2 fun m1s g' hca =>
    C45_calls (junk := junk) (inp := inp) (s := s') (fwd := false) S hw hW' hnb hws' hca hs'⟩

/-- C48: the constructors of the sine and cosine transforms return an object whenever the planner (with reordering) returns a plan and the
transform is defined. -/
theorem C48_object (geo : Geometry bin bout none wi wo) {p : Plan} (h : planOperations bin bout none { opts with useReorder := true } = .ok p)
    (hdef : ∀ d, z.least ≤ wi.extent d) : ∃ ob, makeFft3d (.stockTrig z) bin bout opts = .ok ob ∧ ob.plan = p := by
  have hf := planFacts geo (fun h => absurd rfl h) h
  obtain ⟨o, h1, h2⟩ := setupC2C_ok hf (.stockTrig z) opts.algorithm
  obtain ⟨l, l1, -⟩ := mapRes_ok (f := fun _ e => workOfRank e) (P := fun _ _ _ => True) o.execs 0 (by
    intro r e he
    have hr : r < bin.length := by
      have := (List.getElem?_eq_some_iff.1 he).1
      rwa [h2.lenExecs] at this
    rw [h2.execs r hr] at he
    obtain rfl := Option.some.inj he
    rw [one_executors ⟨rfl, rfl⟩]
    have one : ∀ x : Fin 3, ∃ n, workOf (makeExecutor (p.box r x) ((Backend.stockTrig z).one (p.box r x) (p.dirs x))) = .ok n := by
      intro x
      cases hb : (p.box r x).empty with
      | true => unfold makeExecutor; rw [if_pos hb]; exact ⟨0, rfl⟩
      | false =>
        obtain ⟨q1, q2, q3, q4⟩ := trig_box geo rfl h hr x hb
        obtain ⟨n, -, hn⟩ := (C45_workspace (z := z) q1 hb q2).1 (by rw [q4]; exact hdef _)
        refine ⟨n, ?_⟩
        unfold makeExecutor
        rw [if_neg (by simp [hb])]
        exact hn
    obtain ⟨a, ha⟩ := one 0
    obtain ⟨b, hb⟩ := one 1
    obtain ⟨c, hc⟩ := one 2
    refine ⟨max (max a b) c, ?_, trivial⟩
    unfold workOfRank
    change workOf (makeExecutor (p.box r 0) ((Backend.stockTrig z).one (p.box r 0) p.dirs.x)) = _ at ha
    change workOf (makeExecutor (p.box r 1) ((Backend.stockTrig z).one (p.box r 1) p.dirs.y)) = _ at hb
    change workOf (makeExecutor (p.box r 2) ((Backend.stockTrig z).one (p.box r 2) p.dirs.z)) = _ at hc
    simp only
    rw [ha, hb, hc]
    rfl)
  refine ⟨⟨p, o, false, .stock z⟩, ?_, rfl⟩
  unfold makeFft3d
  simp only [bind, Except.bind]
  rw [show planOperations bin bout none ((Backend.stockTrig z).setOptions opts) = .ok p from h]
  simp only
  rw [h1]
  simp only
  rw [l1]
  rfl

/-- Finding (C47, C48): the constructor of the cosine-I transform never returns when a direction has one index only: the size of the
workspace is asked from an executor that does not exist. -/
theorem C48_cos1_single_false (geo : Geometry bin bout none wi wo) {d : Fin 3} (h1 : wi.extent d = 1) (ob : Object) :
    makeFft3d (.stockTrig .cos1) bin bout opts ≠ .ok ob := by
  intro hmade
  obtain ⟨hplan, hfam, hp, -, -, -, -, hset⟩ := makeFft3d_ok geo hmade
  obtain ⟨q, hq⟩ := geo.nonempty
  have key : ∀ x : Fin 3, ob.plan.dirs x = d → False := by
    intro x hx
    have ht := (hp.redis x.castSucc).tilesOut
    have hqw : q ∈ worldAt wi wo x.castSucc := by
      rw [Box.mem_def] at hq ⊢
      intro e
      have := hp.complex.congr e
      unfold worldAt
      split
      · exact hq e
      · have h1 := hq e
        rw [this.1, this.2]; exact h1
    obtain ⟨b, hb, hqb⟩ := owners_pos_iff.1 (show 0 < owners (ob.plan.outAt x.castSucc) q by rw [ht q, if_pos hqw]; exact one_pos)
    obtain ⟨r, hr, rfl⟩ := List.getElem_of_mem hb
    have hr' : r < bin.length := by rw [hp.lenOut] at hr; exact hr
    have hbox : ob.plan.box r x = (ob.plan.outAt x.castSucc)[r] := by
      have := boxAt_get hr
      rw [List.getElem?_eq_getElem hr] at this
      exact (Option.some.inj this).symm
    rw [← hbox] at hqb
    have hne : (ob.plan.box r x).empty = false := Box.empty_false_of_mem hqb
    obtain ⟨q1, q2, q3, q4⟩ := trig_box geo (setOptions_reorder .cos1 opts) hplan hr' x hne
    have hub := (C45_workspace (z := .cos1) q1 hne q2).2 (by rw [q4, hx, h1]; decide)
    obtain ⟨need, hneed⟩ := made_work hmade (hset.execs r hr')
    obtain ⟨n, hn, -⟩ := workOfRank_ok hneed x
    rw [one_executors ⟨rfl, rfl⟩] at hn
    have mk : makeExecutor (ob.plan.box r x) ((Backend.stockTrig .cos1).one (ob.plan.box r x) (ob.plan.dirs x)) = some (.trig .cos1 (ob.plan.box r x) (ob.plan.dirs x)) := by
      unfold makeExecutor
      rw [if_neg (by simp [hne])]
      rfl
    have hn : workOf (makeExecutor (ob.plan.box r x) ((Backend.stockTrig .cos1).one (ob.plan.box r x) (ob.plan.dirs x))) = .ok n := by
      match x, hn with
      | 0, hn => exact hn
      | 1, hn => exact hn
      | 2, hn => exact hn
    rw [mk] at hn
    have hn : workspaceR2R .cos1 (ob.plan.box r x) (ob.plan.dirs x) = .ok n := hn
    rw [hub] at hn
    cases hn
  rcases hp.dirs.cases d with h | h | h
  · exact key 0 h.symm
  · exact key 1 h.symm
  · exact key 2 h.symm

end

/-- C48: for fewer than 2^31 indexes and at least as many indexes as ranks in each direction (at least two for the cosine-I transform) the
constructor returns an object, with any options. -/
theorem C48_constructor {bin bout : List Box} {wi wo : Box} {z : Trig} (geo : Geometry bin bout none wi wo) (hsmall : wi.count < 2 ^ 31)
    (hlong : ∀ d, (bin.length : Int) ≤ wi.size.get d ∧ (bin.length : Int) ≤ wo.size.get d) (hdef : ∀ d, z.least ≤ wi.extent d) (opts : Opts) :
    ∃ ob, makeFft3d (.stockTrig z) bin bout opts = .ok ob := by
  obtain ⟨p, hp⟩ := (C14_planner_defined (opts := { opts with useReorder := true }) geo hsmall).2 hlong
  obtain ⟨ob, h, -⟩ := C48_object geo hp hdef
  exact ⟨ob, h⟩

/-! ## Examples -/

/-- C45, C46, C47: a box of 3 x 2 x 4 indexes, lines along its fastest direction 2. -/
example (junk : Tag → Int × Int → Scratch) (inp : Tag → Int × Int → Arr ℂ) (tag : Tag) (G : A3 Int → ℝ) (z : Trig) :
    ∃ (b : Box) (ws mem : List ℝ) (need : Int), b = ⟨⟨1, 5, 2⟩, ⟨3, 6, 5⟩, ⟨2, 0, 1⟩⟩ ∧ workspaceR2R z b 2 = .ok need ∧ 0 < need ∧
      need ≤ ws.length ∧ Holds b mem 0 G ∧ 0 + b.count ≤ mem.length ∧ GoodLength (z.gain (b.extent 2)) ∧
      ∃ r, runR2R (stockKernel 4 junk inp) tag z true b 2 0 ws mem = .ok r ∧ Holds b r 0 (along b 2 (trig z true) G) := by
  have ho : IsOrder (⟨2, 0, 1⟩ : A3 (Fin 3)) := by unfold IsOrder; decide
  obtain ⟨need, h1, h2⟩ := (C45_workspace (b := ⟨⟨1, 5, 2⟩, ⟨3, 6, 5⟩, ⟨2, 0, 1⟩⟩) (z := z) (d := 2) ho (by decide) rfl).1 (by cases z <;> decide)
  obtain ⟨x, x1, x2, x3⟩ := holds_exists (α := ℝ) (β := Unit) 1 (.inl fun _ => G) ⟨⟨1, 5, 2⟩, ⟨3, 6, 5⟩, ⟨2, 0, 1⟩⟩ ho
  cases x with
  | inr x => cases x1
  | inl mem =>
    have hG : Holds (⟨⟨1, 5, 2⟩, ⟨3, 6, 5⟩, ⟨2, 0, 1⟩⟩ : Box) mem 0 G := by
      intro p hp
      have := x3 0 (by decide) p hp
      simp only [Data.rd, Field.val, Nat.cast_zero, zero_mul, zero_add] at this ⊢
      cases h : rd mem (Box.offset ⟨⟨1, 5, 2⟩, ⟨3, 6, 5⟩, ⟨2, 0, 1⟩⟩ p) with
      | none => rw [h] at this; cases this
      | some v => rw [h] at this; rw [Sum.inl.inj (Option.some.inj this)]
    have hlen : 0 + Box.count ⟨⟨1, 5, 2⟩, ⟨3, 6, 5⟩, ⟨2, 0, 1⟩⟩ ≤ (mem.length : Int) := by
      rw [zero_add, Box.count_eq_card]
      have : mem.length = _ := x2
      rw [one_mul] at this
      rw [this]
    have hgood : GoodLength (z.gain (Box.extent ⟨⟨1, 5, 2⟩, ⟨3, 6, 5⟩, ⟨2, 0, 1⟩⟩ 2)) :=
      goodLength_small (by cases z <;> decide) (by cases z <;> decide)
    obtain ⟨r, r1, -, r2, -⟩ := stock_trig (z := z) (ws := List.replicate need.toNat 0) (junk := junk) (inp := inp) (tag := tag) (d := 2)
      (by decide : 0 < 4) ho (by decide) rfl (by cases z <;> decide) hgood true h2 (by simp) hG le_rfl hlen
    exact ⟨_, List.replicate need.toNat 0, mem, need, rfl, h2, h1, by simp, hG, hlen, hgood, r, r1, r2⟩

theorem exObjectR2R (z : Trig) (opts : Opts) : ∃ wi wo ob, StockR2R z exIn exOut wi wo opts ob := by
  obtain ⟨wi, wo, h, -⟩ := exGeometry
  have h1 : findWorld exIn = .ok ⟨⟨0, 0, 0⟩, ⟨3, 5, 7⟩, ⟨0, 1, 2⟩⟩ := by decide
  have h2 : findWorld exOut = .ok ⟨⟨0, 0, 0⟩, ⟨3, 5, 7⟩, ⟨0, 1, 2⟩⟩ := by decide
  obtain rfl := Except.ok.inj (h1.symm.trans h.worldIn)
  obtain rfl := Except.ok.inj (h2.symm.trans h.worldOut)
  have hdef : ∀ (z : Trig) d, z.least ≤ Box.extent ⟨⟨0, 0, 0⟩, ⟨3, 5, 7⟩, ⟨0, 1, 2⟩⟩ d := by intro z; cases z <;> decide
  obtain ⟨ob, hob⟩ := C48_constructor (z := z) h (by decide) (by decide) (hdef z) opts
  refine ⟨_, _, ob, h, hob, hdef z, fun d => goodLength_small ?_ ?_⟩ <;> cases z <;> revert d <;> decide

/-- There are workspaces for the executors of any object. -/
theorem work_exists (ob : Object) : ∃ ws, EnoughWork ob ws := by
  classical
  refine ⟨fun tag => match ob.fft.execs[tag.rank]? with
    | none => []
    | some e => match workOfRank e with
      | .ok n => List.replicate n.toNat 0
      | .error _ => [], fun tag e need he hn => ?_⟩
  simp only [he, hn, List.length_replicate]
  exact Int.self_le_toNat _

/-- C45 to C48: two calls, the second one on the output of the first one, give the data back; for the three transforms and any values. -/
example (z : Trig) (opts : Opts) (g : Nat → A3 Int → ℝ) :
    ∃ ob, ∃ (ws : Tag → List ℝ) (W W' : World ℝ Unit) (m0s ms m1s ms' : List (Mem ℝ Unit)), Continues (fun _ => false) ms m1s ∧
      performR2R ob (trigKernel (stockKernel 4 (fun _ _ => ⟨fun _ => 0, fun _ _ => 0⟩) (fun _ _ _ => 0)) ws) W true 2 (fun _ => false) .none m0s = .ok ms ∧
      performR2R ob (trigKernel (stockKernel 4 (fun _ _ => ⟨fun _ => 0, fun _ _ => 0⟩) (fun _ _ _ => 0)) ws) W' false 2 (fun _ => false) .full m1s = .ok ms' ∧
      Outcome exIn 2 m1s ms' (.inl g) := by
  obtain ⟨wi, wo, ob, S⟩ := exObjectR2R z opts
  obtain ⟨W, hW⟩ := world_exists (α := ℝ) (β := Unit) ob.plan true
  obtain ⟨W', hW'⟩ := world_exists (α := ℝ) (β := Unit) ob.plan false
  obtain ⟨ws, hws⟩ := work_exists ob
  obtain ⟨m0s, h⟩ := arrays_exist exIn exOut false (ob.sizeWorkspace trigWork) 2 (.inl g : Field ℝ Unit) (src_order S.geo true)
  have hs : SourceHolds exIn fun _ => false := exSource _ (by simp)
  have hs' : SourceHolds exOut fun _ => false := exSource _ (by simp)
  obtain ⟨ms, h1, h2⟩ := C45_calls (junk := fun _ _ => ⟨fun _ => 0, fun _ _ => 0⟩) (inp := fun _ _ _ => 0) (s := .none) (fwd := true) S (by decide : 0 < 4) hW
    (by decide : 0 < 2) hws h hs
  obtain ⟨m1s, h3, h4⟩ := swap_arrays (src := exIn) (dst := exOut) rfl h.has h2
  obtain ⟨ms2, h5, h6⟩ := C48_roundtrip (junk := fun _ _ => ⟨fun _ => 0, fun _ _ => 0⟩) (inp := fun _ _ _ => 0) (s := .none) (s' := .full) S (by decide : 0 < 4)
    hW hW' (by decide : 0 < 2) hws hws h hs hs'
  obtain rfl := Except.ok.inj (h1.symm.trans h5)
  obtain ⟨ms', h7, -, h8⟩ := h6 m1s h3 h4
  exact ⟨ob, ws, W, W', m0s, ms, m1s, ms', h4, h1, h7, h8 (.inr (.inl ⟨rfl, rfl⟩))⟩

/-- C48_cos1_single_false: one rank, 4 x 1 x 3 indexes; the cosine transform of the same boxes has an object. -/
example (opts : Opts) : (∃ wi wo, Geometry [⟨⟨0, 0, 0⟩, ⟨3, 0, 2⟩, ⟨0, 1, 2⟩⟩] [⟨⟨0, 0, 0⟩, ⟨3, 0, 2⟩, ⟨0, 1, 2⟩⟩] none wi wo ∧ wi.extent 1 = 1) ∧
    (∃ ob, makeFft3d (.stockTrig .cos) [⟨⟨0, 0, 0⟩, ⟨3, 0, 2⟩, ⟨0, 1, 2⟩⟩] [⟨⟨0, 0, 0⟩, ⟨3, 0, 2⟩, ⟨0, 1, 2⟩⟩] opts = .ok ob) ∧
    ∀ ob, makeFft3d (.stockTrig .cos1) [⟨⟨0, 0, 0⟩, ⟨3, 0, 2⟩, ⟨0, 1, 2⟩⟩] [⟨⟨0, 0, 0⟩, ⟨3, 0, 2⟩, ⟨0, 1, 2⟩⟩] opts ≠ .ok ob := by
  have geo : Geometry [⟨⟨0, 0, 0⟩, ⟨3, 0, 2⟩, ⟨0, 1, 2⟩⟩] [⟨⟨0, 0, 0⟩, ⟨3, 0, 2⟩, ⟨0, 1, 2⟩⟩] none ⟨⟨0, 0, 0⟩, ⟨3, 0, 2⟩, ⟨0, 1, 2⟩⟩ ⟨⟨0, 0, 0⟩, ⟨3, 0, 2⟩, ⟨0, 1, 2⟩⟩ := by
    obtain ⟨wi, wo, h, -⟩ := checked_geometry (bin := [⟨⟨0, 0, 0⟩, ⟨3, 0, 2⟩, ⟨0, 1, 2⟩⟩]) (bout := [⟨⟨0, 0, 0⟩, ⟨3, 0, 2⟩, ⟨0, 1, 2⟩⟩]) (r2c := none)
      (by decide) rfl (by decide) (by decide) ⟨_, List.mem_cons_self .., ⟨0, 0, 0⟩, by decide⟩
    have h1 : findWorld [⟨⟨0, 0, 0⟩, ⟨3, 0, 2⟩, ⟨0, 1, 2⟩⟩] = .ok ⟨⟨0, 0, 0⟩, ⟨3, 0, 2⟩, ⟨0, 1, 2⟩⟩ := by decide
    obtain rfl := Except.ok.inj (h1.symm.trans h.worldIn)
    obtain rfl := Except.ok.inj (h1.symm.trans h.worldOut)
    exact h
  refine ⟨⟨_, _, geo, by decide⟩, ?_, C48_cos1_single_false geo (d := 1) (by decide)⟩
  exact C48_constructor geo (by decide) (by decide) (by decide) opts

end Verif
