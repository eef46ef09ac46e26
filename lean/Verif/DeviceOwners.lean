import Verif.SpecVector
import Mathlib.Data.List.TakeDrop

/-!
# The owners of the blocks of device memory
-/

namespace Verif

section
variable {α : Type}

/-! ## Owners -/

/-- The owners of blocks: the vectors, the raw pointers, the temporary vector of an assignment. -/
inductive Owner where
  | vec (v : Nat)
  | raw (r : Nat)
  | temp
deriving DecidableEq

variable {api : DevApi} {q0 : Nat}

/-- Every block has exactly one owner. -/
structure Owned (api : DevApi) (q0 : Nat) (heap : Nat → Option (DevBlock α)) (ptr : Owner → Option Nat) (val : Owner → List α) : Prop where
  inj : ∀ x y a, ptr x = some a → ptr y = some a → x = y
  live : ∀ x a, ptr x = some a → ∃ b, heap a = some b ∧ val x <+: b.data ∧ (api = .oneapi → b.context = q0)
  null : ∀ x, ptr x = none → val x = []
  cover : ∀ a b, heap a = some b → ∃ x, ptr x = some a

variable {heap : Nat → Option (DevBlock α)} {ptr : Owner → Option Nat} {val : Owner → List α}

theorem Owned.congr (h : Owned api q0 heap ptr val) {ptr' : Owner → Option Nat} {val' : Owner → List α} (hp : ∀ x, ptr' x = ptr x) (hv : ∀ x, val' x = val x) :
    Owned api q0 heap ptr' val' := by
  obtain rfl : ptr' = ptr := funext hp
  obtain rfl : val' = val := funext hv
  exact h

theorem Owned.alloc (h : Owned api q0 heap ptr val) {x : Owner} (hx : ptr x = none) {a q : Nat} (ha : heap a = none) (junk : List α) (hq : api = .oneapi → q = q0) :
    Owned api q0 (Function.update heap a (some ⟨q, junk⟩)) (Function.update ptr x (some a)) (Function.update val x junk) := by
  have hno : ∀ y, ptr y ≠ some a := fun y hy => by
    obtain ⟨b, hb, -⟩ := h.live y a hy
    rw [ha] at hb; cases hb
  refine ⟨fun y z c hy hz => ?_, fun y c hy => ?_, fun y hy => ?_, fun c b hc => ?_⟩
  · by_cases e : y = x <;> by_cases e' : z = x
    · rw [e, e']
    · rw [e, Function.update_self] at hy
      rw [Function.update_of_ne e'] at hz
      obtain rfl := Option.some.inj hy
      exact absurd hz (hno z)
    · rw [e', Function.update_self] at hz
      rw [Function.update_of_ne e] at hy
      obtain rfl := Option.some.inj hz
      exact absurd hy (hno y)
    · rw [Function.update_of_ne e] at hy
      rw [Function.update_of_ne e'] at hz
      exact h.inj y z c hy hz
  · by_cases e : y = x
    · subst e
      rw [Function.update_self] at hy
      obtain rfl := Option.some.inj hy
      exact ⟨⟨q, junk⟩, by simp, by simp, hq⟩
    · rw [Function.update_of_ne e] at hy ⊢
      have hc : c ≠ a := fun hc => hno y (hc ▸ hy)
      rw [Function.update_of_ne hc]
      exact h.live y c hy
  · by_cases e : y = x
    · rw [e, Function.update_self] at hy; cases hy
    · rw [Function.update_of_ne e] at hy ⊢
      exact h.null y hy
  · by_cases e : c = a
    · exact ⟨x, by simp [e]⟩
    · rw [Function.update_of_ne e] at hc
      obtain ⟨y, hy⟩ := h.cover c b hc
      have : y ≠ x := fun e => by rw [e, hx] at hy; cases hy
      exact ⟨y, by rw [Function.update_of_ne this]; exact hy⟩

theorem Owned.free (h : Owned api q0 heap ptr val) {x : Owner} {q : Nat} (hq : api = .oneapi → q = q0) :
    ∃ heap', devFree api heap q (ptr x) = some heap' ∧ Owned api q0 heap' (Function.update ptr x none) (Function.update val x []) := by
  cases hp : ptr x with
  | none =>
    refine ⟨heap, rfl, h.congr (fun y => ?_) fun y => ?_⟩
    · by_cases e : y = x
      · rw [e, Function.update_self, hp]
      · rw [Function.update_of_ne e]
    · by_cases e : y = x
      · rw [e, Function.update_self, h.null x hp]
      · rw [Function.update_of_ne e]
  | some a =>
    obtain ⟨b, hb, -, hc⟩ := h.live x a hp
    refine ⟨Function.update heap a none, ?_, ?_⟩
    · unfold devFree
      simp only [hb]
      rw [if_neg]
      rintro ⟨h1, h2⟩
      exact h2 ((hc h1).trans (hq h1).symm)
    · refine ⟨fun y z c hy hz => ?_, fun y c hy => ?_, fun y hy => ?_, fun c b' hc' => ?_⟩
      · by_cases e : y = x
        · rw [e, Function.update_self] at hy; cases hy
        by_cases e' : z = x
        · rw [e', Function.update_self] at hz; cases hz
        rw [Function.update_of_ne e] at hy
        rw [Function.update_of_ne e'] at hz
        exact h.inj y z c hy hz
      · by_cases e : y = x
        · rw [e, Function.update_self] at hy; cases hy
        rw [Function.update_of_ne e] at hy ⊢
        have hne : c ≠ a := fun hc => e (h.inj y x a (hc ▸ hy) hp)
        rw [Function.update_of_ne hne]
        exact h.live y c hy
      · by_cases e : y = x
        · rw [e, Function.update_self]
        · rw [Function.update_of_ne e] at hy ⊢
          exact h.null y hy
      · by_cases e : c = a
        · rw [e, Function.update_self] at hc'; cases hc'
        · rw [Function.update_of_ne e] at hc'
          obtain ⟨y, hy⟩ := h.cover c b' hc'
          have hne : y ≠ x := fun hyx => e (Option.some.inj ((hyx ▸ hy).symm.trans hp))
          exact ⟨y, by rw [Function.update_of_ne hne]; exact hy⟩

/-- The owner `y` takes over the block of `x`. -/
theorem Owned.give (h : Owned api q0 heap ptr val) {x y : Owner} (hy : ptr y = none) (hxy : y ≠ x) :
    Owned api q0 heap (Function.update (Function.update ptr x none) y (ptr x)) (Function.update (Function.update val x []) y (val x)) := by
  have get : ∀ z, Function.update (Function.update ptr x none) y (ptr x) z = if z = y then ptr x else if z = x then none else ptr z := by
    intro z
    simp only [Function.update_apply]
  have gev : ∀ z, Function.update (Function.update val x []) y (val x) z = if z = y then val x else if z = x then [] else val z := by
    intro z
    simp only [Function.update_apply]
  -- the owner before
  have back : ∀ z c, Function.update (Function.update ptr x none) y (ptr x) z = some c → ∃ z', ptr z' = some c ∧ (z = y ∧ z' = x ∨ z ≠ y ∧ z ≠ x ∧ z' = z) := by
    intro z c hz
    rw [get] at hz
    split at hz
    · exact ⟨x, hz, .inl ⟨by assumption, rfl⟩⟩
    · split at hz
      · cases hz
      · exact ⟨z, hz, .inr ⟨by assumption, by assumption, rfl⟩⟩
  refine ⟨fun z z' c h1 h2 => ?_, fun z c h1 => ?_, fun z h1 => ?_, fun c b hc => ?_⟩
  · obtain ⟨u, hu, k⟩ := back z c h1
    obtain ⟨u', hu', k'⟩ := back z' c h2
    have := h.inj u u' c hu hu'
    rcases k with ⟨a1, a2⟩ | ⟨a1, a2, a3⟩ <;> rcases k' with ⟨b1, b2⟩ | ⟨b1, b2, b3⟩
    · rw [a1, b1]
    · exact absurd (b3 ▸ this ▸ a2) b2
    · exact absurd (a3 ▸ this.symm ▸ b2) a2
    · rw [← a3, ← b3]; exact this
  · obtain ⟨u, hu, k⟩ := back z c h1
    obtain ⟨b, hb, hv, hc⟩ := h.live u c hu
    refine ⟨b, hb, ?_, hc⟩
    rw [gev]
    rcases k with ⟨a1, a2⟩ | ⟨a1, a2, a3⟩
    · rw [if_pos a1, ← a2]; exact hv
    · rw [if_neg a1, if_neg a2, ← a3]; exact hv
  · rw [get] at h1
    rw [gev]
    split at h1
    · rw [if_pos (by assumption)]; exact h.null x h1
    · rw [if_neg (by assumption)]
      split at h1
      · rw [if_pos (by assumption)]
      · rw [if_neg (by assumption)]; exact h.null z h1
  · obtain ⟨u, hu⟩ := h.cover c b hc
    by_cases e : u = x
    · exact ⟨y, by rw [get, if_pos rfl, ← e]; exact hu⟩
    · have : u ≠ y := fun e => by rw [e, hy] at hu; cases hu
      exact ⟨u, by rw [get, if_neg this, if_neg e]; exact hu⟩

/-- The owner `x` writes into its block. -/
theorem Owned.write (h : Owned api q0 heap ptr val) {x : Owner} {a : Nat} (hx : ptr x = some a) {b : DevBlock α} (hb : heap a = some b) {data l : List α} (hl : l <+: data) :
    Owned api q0 (Function.update heap a (some { b with data := data })) ptr (Function.update val x l) := by
  refine ⟨h.inj, fun y c hy => ?_, fun y hy => ?_, fun c b' hc => ?_⟩
  · by_cases e : y = x
    · subst e
      obtain rfl := Option.some.inj (hx.symm.trans hy)
      obtain ⟨b1, h1, -, h2⟩ := h.live y a hy
      obtain rfl := Option.some.inj (hb.symm.trans h1)
      refine ⟨{ b with data := data }, by rw [Function.update_self], ?_, h2⟩
      rw [Function.update_self]; exact hl
    · have hne : c ≠ a := fun hc => e (h.inj y x a (hc ▸ hy) hx)
      rw [Function.update_of_ne e, Function.update_of_ne hne]
      exact h.live y c hy
  · have e : y ≠ x := fun e => by rw [e, hx] at hy; cases hy
    rw [Function.update_of_ne e]
    exact h.null y hy
  · by_cases e : c = a
    · exact ⟨x, by rw [e]; exact hx⟩
    · rw [Function.update_of_ne e] at hc
      exact h.cover c b' hc

/-- The program looks at fewer entries. -/
theorem Owned.less (h : Owned api q0 heap ptr val) {x : Owner} {l : List α} (hl : l <+: val x) : Owned api q0 heap ptr (Function.update val x l) := by
  refine ⟨h.inj, fun y c hy => ?_, fun y hy => ?_, h.cover⟩
  · obtain ⟨b, hb, hv, hc⟩ := h.live y c hy
    refine ⟨b, hb, ?_, hc⟩
    by_cases e : y = x
    · rw [e] at hv ⊢
      rw [Function.update_self]; exact hl.trans hv
    · rw [Function.update_of_ne e]; exact hv
  · by_cases e : y = x
    · rw [e] at hy ⊢
      rw [Function.update_self]
      rw [h.null x hy] at hl
      exact List.prefix_nil.1 hl
    · rw [Function.update_of_ne e]; exact h.null y hy

/-- A copy of entries of one owner to another one. -/
theorem Owned.copy (h : Owned api q0 heap ptr val) {x y : Owner} (hxy : y ≠ x) {i n q : Nat} (hi : i + n ≤ (val x).length) (hy : (val y).length = n) (hq : api = .oneapi → q = q0) :
    ∃ heap', devCopy api heap q (ptr x) i n (ptr y) = some heap' ∧ Owned api q0 heap' ptr (Function.update val y (((val x).drop i).take n)) := by
  unfold devCopy
  by_cases hn : n = 0
  · refine ⟨heap, by rw [if_pos hn], ?_⟩
    have e : ((val x).drop i).take n = val y := by
      rw [hn] at hy ⊢
      rw [List.take_zero, List.length_eq_zero_iff.1 hy]
    rw [e, Function.update_eq_self]
    exact h
  · rw [if_neg hn]
    cases hpx : ptr x with
    | none => rw [h.null x hpx] at hi; simp at hi; omega
    | some s =>
      cases hpy : ptr y with
      | none => rw [h.null y hpy] at hy; simp at hy; omega
      | some d =>
        obtain ⟨a, ha, hva, hca⟩ := h.live x s hpx
        obtain ⟨b, hb, hvb, hcb⟩ := h.live y d hpy
        have l1 := hva.length_le
        have l2 := hvb.length_le
        refine ⟨Function.update heap d (some { b with data := (a.data.drop i).take n ++ b.data.drop n }), ?_, ?_⟩
        · simp only [ha, hb]
          rw [if_pos ⟨by omega, by omega, fun ho => ⟨(hca ho).trans (hq ho).symm, (hcb ho).trans (hq ho).symm⟩⟩]
        · refine h.write hpy hb ?_
          have e : ((val x).drop i).take n = (a.data.drop i).take n := by
            obtain ⟨t, ht⟩ := hva
            rw [← ht, List.drop_append_of_le_length (by omega), List.take_append_of_le_length (by rw [List.length_drop]; omega)]
          rw [e]
          exact List.prefix_append _ _

/-! ## The state of the program -/

def ptrOf (st : DevState α) : Owner → Option Nat
  | .vec v => (st.vecs v).bind (·.data)
  | .raw r => st.raws r
  | .temp => none

def valOf (t : DevValues α) : Owner → List α
  | .vec v => (t.vecs v).getD []
  | .raw r => (t.raws r).getD []
  | .temp => []

/-- The machine and the values of the program agree. -/
structure DevSim (api : DevApi) (q0 : Nat) (st : DevState α) (t : DevValues α) : Prop where
  owned : Owned api q0 st.heap (ptrOf st) (valOf t)
  exist : ∀ v, st.vecs v = none ↔ t.vecs v = none
  sizes : ∀ v d l, st.vecs v = some d → t.vecs v = some l → d.num = l.length ∧ (api = .oneapi → d.queue = q0)
  raws : ∀ r, t.raws r = none → st.raws r = none

theorem DevSim.get {st : DevState α} {t : DevValues α} (h : DevSim api q0 st t) {v : Nat} (hv : t.vecs v ≠ none) :
    ∃ d l, st.vecs v = some d ∧ t.vecs v = some l ∧ d.num = l.length ∧ (api = .oneapi → d.queue = q0) ∧ ptrOf st (.vec v) = d.data ∧ valOf t (.vec v) = l := by
  cases hd : st.vecs v with
  | none => exact absurd ((h.exist v).1 hd) hv
  | some d =>
    cases hl : t.vecs v with
    | none => exact absurd hl hv
    | some l =>
      obtain ⟨h1, h2⟩ := h.sizes v d l hd hl
      exact ⟨d, l, rfl, rfl, h1, h2, by simp [ptrOf, hd], by simp [valOf, hl]⟩

theorem DevSim.holds {st : DevState α} {t : DevValues α} (h : DevSim api q0 st t) : DevHolds st t := by
  intro v
  cases hd : st.vecs v with
  | none => rw [(h.exist v).1 hd]; trivial
  | some d =>
    cases hl : t.vecs v with
    | none => rw [(h.exist v).2 hl] at hd; cases hd
    | some l =>
      obtain ⟨h1, -⟩ := h.sizes v d l hd hl
      refine ⟨h1, ?_⟩
      unfold DevState.entries
      by_cases hz : d.num = 0
      · rw [if_pos hz]
        rw [hz] at h1
        rw [List.length_eq_zero_iff.1 h1.symm]
      · rw [if_neg hz]
        have ep : ptrOf st (.vec v) = d.data := by simp [ptrOf, hd]
        have ev : valOf t (.vec v) = l := by simp [valOf, hl]
        cases hp : d.data with
        | none =>
          have := h.owned.null (.vec v) (ep.trans hp)
          rw [ev] at this
          rw [this] at h1
          exact absurd h1 hz
        | some a =>
          obtain ⟨b, hb, hv, -⟩ := h.owned.live (.vec v) a (ep.trans hp)
          rw [ev] at hv
          simp only [hb]
          rw [if_pos (by rw [h1]; exact hv.length_le), h1]
          exact congrArg some (List.prefix_iff_eq_take.1 hv).symm

theorem DevSim.empty {st : DevState α} {t : DevValues α} (h : DevSim api q0 st t) (hv : ∀ v, t.vecs v = none) (hr : ∀ r, t.raws r = none) (a : Nat) : st.heap a = none := by
  cases hb : st.heap a with
  | none => rfl
  | some b =>
    obtain ⟨x, hx⟩ := h.owned.cover a b hb
    cases x with
    | vec v => simp [ptrOf, (h.exist v).2 (hv v)] at hx
    | raw r => simp [ptrOf, h.raws r (hr r)] at hx
    | temp => cases hx

end
end Verif
