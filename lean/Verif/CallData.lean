import Verif.StockCalls

/-!
# Arrays of a call without reference to their values

Any arrays of the right sizes hold some values (`HasArrays.values`), two calls whose results are the same values have the same entries
(`Outcome.entries`), and there are arrays for any values (`arrays_exist`).
-/

namespace Verif

/-- The arrays of a call of the right types and sizes, with any contents; see `CallArrays`. -/
structure HasArrays {α β : Type} (src dst : List Box) (realIn realOut : Bool) (need : Nat → Int) (nb : Nat) (inplace : Nat → Bool)
    (m0s : List (Mem α β)) : Prop where
  ranks : m0s.length = src.length
  input : ∀ (r : Nat) m0, m0s[r]? = some m0 → m0.input.isReal = realIn
  output : ∀ (r : Nat) m0, m0s[r]? = some m0 → m0.output.isReal = realOut
  inputSize : ∀ (r : Nat) m0, m0s[r]? = some m0 →
    nb * (boxAt src r).points.card ≤ (if inplace r then m0.output else m0.input).size
  outputSize : ∀ (r : Nat) m0, m0s[r]? = some m0 → nb * (boxAt dst r).points.card ≤ m0.output.size
  work : ∀ (r : Nat) m0, m0s[r]? = some m0 → nb * need r ≤ m0.work.length

/-- The array with the input. -/
def inputOf {α β : Type} (inplace : Nat → Bool) (r : Nat) (m : Mem α β) : Data α β := if inplace r then m.output else m.input

theorem Data.rd_some {α β : Type} {x : Data α β} {a : Int} (h0 : 0 ≤ a) (h1 : a < x.size) : ∃ v, x.rd a = some v ∧ v.isRight = x.isReal := by
  cases x with
  | inl l =>
    have h1 : a < (l.length : Int) := h1
    refine ⟨.inl (l[a.toNat]'(by omega)), ?_, rfl⟩
    simp only [Data.rd, Verif.rd]
    rw [if_pos h0, List.getElem?_eq_getElem (by omega)]; rfl
  | inr l =>
    have h1 : a < (l.length : Int) := h1
    refine ⟨.inr (l[a.toNat]'(by omega)), ?_, rfl⟩
    simp only [Data.rd, Verif.rd]
    rw [if_pos h0, List.getElem?_eq_getElem (by omega)]; rfl

section
variable {src dst : List Box} {w : Box} {realIn realOut : Bool} {need : Nat → Int} {nb : Nat} {inplace : Nat → Bool} {α β : Type} [Inhabited α] [Inhabited β] {m0s : List (Mem α β)}

/-- The field with given entries. -/
noncomputable def fieldOf (real : Bool) (v : Nat → A3 Int → α ⊕ β) : Field α β :=
  if real then .inr fun j p => (v j p).elim (fun _ => default) id else .inl fun j p => (v j p).elim id (fun _ => default)

theorem fieldOf_val {real : Bool} {v : Nat → A3 Int → α ⊕ β} {j : Nat} {p : A3 Int} (h : (v j p).isRight = real) : (fieldOf real v).val j p = v j p := by
  unfold fieldOf
  cases hv : v j p <;> rw [hv] at h <;> simp at h <;> subst h <;> simp [Field.val, hv]

theorem fieldOf_isReal (real : Bool) (v : Nat → A3 Int → α ⊕ β) : (fieldOf real v).isReal = real := by
  unfold fieldOf
  cases real <;> rfl

/-- Arrays on a tiling hold some values. -/
theorem HasArrays.values (h : HasArrays src dst realIn realOut need nb inplace m0s) (ht : Tiles src w) (ho : ∀ b ∈ src, IsOrder b.order)
    (hin : ∀ r, r < src.length → inplace r = true → realIn = realOut) :
    ∃ G : Field α β, G.isReal = realIn ∧ CallArrays src dst realIn realOut need nb inplace m0s G := by
  classical
  let at_ : Nat → Data α β := fun r => (m0s[r]?).elim (.inl []) (inputOf inplace r)
  let who : A3 Int → Nat := fun p => if hp : ∃ r, r < src.length ∧ p ∈ boxAt src r then hp.choose else 0
  let v : Nat → A3 Int → α ⊕ β := fun j p =>
    ((at_ (who p)).rd (j * (boxAt src (who p)).points.card + (boxAt src (who p)).offset p)).getD (.inl default)
  refine ⟨fieldOf realIn v, fieldOf_isReal _ _, h.ranks, h.input, h.output, h.inputSize, h.outputSize, ?_, h.work⟩
  intro r m0 hr j hj p hp
  have hrl : r < src.length := by rw [← h.ranks]; exact (List.getElem?_eq_some_iff.1 hr).1
  have hex : ∃ r, r < src.length ∧ p ∈ boxAt src r := ⟨r, hrl, hp⟩
  have hwho : who p = r := by
    have e : who p = hex.choose := dif_pos hex
    rw [e]
    obtain ⟨c1, c2⟩ := hex.choose_spec
    have g1 := boxAt_get c1
    have g2 := boxAt_get hrl
    rw [List.getElem?_eq_getElem c1] at g1
    rw [List.getElem?_eq_getElem hrl] at g2
    exact ht.unique c1 hrl (by rw [Option.some.inj g1]; exact c2) (by rw [Option.some.inj g2]; exact hp)
  have hat : at_ r = inputOf inplace r m0 := by simp only [at_, hr]; rfl
  have hb := boxAt_mem hrl
  have hof := Box.offset_range (ho _ hb) hp
  rw [Box.count_eq_card] at hof
  have hsz := h.inputSize r m0 hr
  have hreal : (inputOf inplace r m0).isReal = realIn := by
    unfold inputOf
    split
    · rename_i hi; rw [h.output r m0 hr]; exact (hin r hrl hi).symm
    · exact h.input r m0 hr
  have hmul : ((j + 1 : Nat) : Int) * (boxAt src r).points.card ≤ nb * (boxAt src r).points.card :=
    mul_le_mul_of_nonneg_right (by exact_mod_cast hj) (Int.natCast_nonneg _)
  have hmul0 : (0 : Int) ≤ j * (boxAt src r).points.card := mul_nonneg (Int.natCast_nonneg _) (Int.natCast_nonneg _)
  push_cast at hmul
  rw [add_mul, one_mul] at hmul
  have hsz' : (nb : Int) * (boxAt src r).points.card ≤ (inputOf inplace r m0).size := by exact_mod_cast hsz
  obtain ⟨x, x1, x2⟩ := Data.rd_some (x := inputOf inplace r m0) (a := j * (boxAt src r).points.card + (boxAt src r).offset p)
    (by omega) (by omega)
  have hv : v j p = x := by
    simp only [v]
    rw [hwho, hat, x1]; rfl
  show (inputOf inplace r m0).rd _ = _
  rw [x1, fieldOf_val (by rw [hv, x2, hreal]), hv]

omit [Inhabited α] [Inhabited β] in
theorem CallArrays.has {G : Field α β} (h : CallArrays src dst realIn realOut need nb inplace m0s G) :
    HasArrays src dst realIn realOut need nb inplace m0s := ⟨h.ranks, h.input, h.output, h.inputSize, h.outputSize, h.work⟩

end

section
variable {α β : Type} {dst : List Box} {w : Box} {nb nb' : Nat} {m0s ms m0s' ms' : List (Mem α β)} {F F' : Field α β}

/-- Two results with the same values have the same entries. -/
theorem Outcome.entries (h : Outcome dst nb m0s ms F) (h' : Outcome dst nb' m0s' ms' F') (ht : Tiles dst w) (ho : ∀ b ∈ dst, IsOrder b.order)
    (hl : m0s.length = dst.length) {j j' : Nat} (hj : j < nb) (hj' : j' < nb') (hv : ∀ p ∈ w, F.val j p = F'.val j' p)
    {r : Nat} {m m' : Mem α β} (hm : ms[r]? = some m) (hm' : ms'[r]? = some m') {a : Int} (h0 : 0 ≤ a) (h1 : a < (boxAt dst r).count) :
    m.output.rd (j * (boxAt dst r).count + a) = m'.output.rd (j' * (boxAt dst r).count + a) := by
  have hr : r < dst.length := by rw [← hl, ← h.ranks]; exact (List.getElem?_eq_some_iff.1 hm).1
  have hb := boxAt_mem hr
  obtain ⟨p, hp, rfl⟩ := Box.offset_surj (ho _ hb) h0 h1
  rw [Box.count_eq_card, h.values r m hm j hj p hp, h'.values r m' hm' j' hj' p hp, hv p (ht.mem_world hb hp)]

end

/-! ## Existence -/

section
variable {α β : Type} [Inhabited α] [Inhabited β] (src dst : List Box) (realOut : Bool) (need : Nat → Int) (nb : Nat) (G : Field α β)

omit [Inhabited α] [Inhabited β] in
theorem holds_exists (b : Box) (ho : IsOrder b.order) :
    ∃ x : Data α β, x.isReal = G.isReal ∧ x.size = nb * b.points.card ∧ ∀ j, j < nb → HoldsSlot b j x G := by
  classical
  let pt : Int → A3 Int := fun a => if h : 0 ≤ a ∧ a < b.count then (Box.offset_surj ho h.1 h.2).choose else ⟨0, 0, 0⟩
  have hpt : ∀ p : A3 Int, p ∈ b → pt (b.offset p) = p := by
    intro p hp
    have h := Box.offset_range ho hp
    have e : pt (b.offset p) = (Box.offset_surj ho h.1 h.2).choose := dif_pos h
    rw [e]
    obtain ⟨c1, c2⟩ := (Box.offset_surj ho h.1 h.2).choose_spec
    exact Box.offset_inj ho c1 hp c2
  have key : ∀ (j : Nat) (p : A3 Int), j < nb → p ∈ b → (j * b.points.card + b.offset p).toNat < nb * b.points.card ∧
      (j * b.points.card + b.offset p).toNat / b.points.card = j ∧ pt ((j * b.points.card + b.offset p).toNat % b.points.card : Nat) = p := by
    intro j p hj hp
    have h := Box.offset_range ho hp
    rw [Box.count_eq_card] at h
    obtain ⟨o, ho'⟩ := Int.eq_ofNat_of_zero_le h.1
    have e : (j * b.points.card + b.offset p).toNat = o + b.points.card * j := by rw [ho', mul_comm (b.points.card)]; omega
    have hlt : o < b.points.card := by omega
    have hmul : (j + 1) * b.points.card ≤ nb * b.points.card := Nat.mul_le_mul_right _ hj
    rw [add_mul, one_mul, mul_comm j] at hmul
    rw [e]
    refine ⟨by omega, ?_, ?_⟩
    · rw [Nat.add_mul_div_left _ _ (by omega), Nat.div_eq_of_lt hlt, Nat.zero_add]
    · rw [Nat.add_mul_mod_self_left, Nat.mod_eq_of_lt hlt, ← ho', hpt p hp]
  have nonneg : ∀ (j : Nat) (p : A3 Int), p ∈ b → (0 : Int) ≤ j * b.points.card + b.offset p := fun j p hp =>
    add_nonneg (mul_nonneg (Int.natCast_nonneg _) (Int.natCast_nonneg _)) (Box.offset_range ho hp).1
  cases G with
  | inl g =>
    refine ⟨.inl ((List.range (nb * b.points.card)).map fun a => g (a / b.points.card) (pt (a % b.points.card : Nat))), rfl, by simp [Data.size], ?_⟩
    intro j hj p hp
    obtain ⟨k1, k2, k3⟩ := key j p hj hp
    simp only [Data.rd, rd, Field.val]
    rw [if_pos (nonneg j p hp), List.getElem?_map, List.getElem?_range k1]
    simp only [Option.map_some]
    rw [k2, k3]
  | inr g =>
    refine ⟨.inr ((List.range (nb * b.points.card)).map fun a => g (a / b.points.card) (pt (a % b.points.card : Nat))), rfl, by simp [Data.size], ?_⟩
    intro j hj p hp
    obtain ⟨k1, k2, k3⟩ := key j p hj hp
    simp only [Data.rd, rd, Field.val]
    rw [if_pos (nonneg j p hp), List.getElem?_map, List.getElem?_range k1]
    simp only [Option.map_some]
    rw [k2, k3]

/-- There are arrays for any values. -/
theorem arrays_exist (ho : ∀ b ∈ src, IsOrder b.order) :
    ∃ m0s, CallArrays src dst G.isReal realOut need nb (fun _ => false) m0s G := by
  classical
  have hx : ∀ r, ∃ x : Data α β, r < src.length → x.isReal = G.isReal ∧ x.size = nb * (boxAt src r).points.card ∧
      ∀ j, j < nb → HoldsSlot (boxAt src r) j x G := by
    intro r
    by_cases hr : r < src.length
    · obtain ⟨x, hx⟩ := holds_exists nb G (boxAt src r) (ho _ (boxAt_mem hr))
      exact ⟨x, fun _ => hx⟩
    · exact ⟨.inl [], fun h => absurd h hr⟩
  choose x hx using hx
  let out : Nat → Data α β := fun r => if realOut then .inr (List.replicate (nb * (boxAt dst r).points.card) default) else
    .inl (List.replicate (nb * (boxAt dst r).points.card) default)
  refine ⟨(List.range src.length).map fun r => ⟨x r, out r, List.replicate (nb * need r).toNat default⟩, by simp, ?_, ?_, ?_, ?_, ?_, ?_⟩
  all_goals
    intro r m0 hr
    have hrl : r < src.length := by have := (List.getElem?_eq_some_iff.1 hr).1; simpa using this
    rw [List.getElem?_map, List.getElem?_range hrl] at hr
    obtain rfl := Option.some.inj hr
  · exact (hx r hrl).1
  · simp only [out]; cases realOut <;> rfl
  · exact le_of_eq (hx r hrl).2.1.symm
  · simp only [out]; cases realOut <;> simp [Data.size]
  · exact (hx r hrl).2.2
  · simp only [List.length_replicate]; exact Int.self_le_toNat _

end

/-- There is an environment for any plan. -/
theorem world_exists {α β : Type} (p : Plan) (fwd : Bool) : ∃ W : World α β, WorldOk W p fwd :=
  ⟨⟨1, fun i r => List.range (Senders (p.before fwd i) (p.after fwd i) r).card, fun _ _ l => l, fun _ _ l => l⟩,
    Nat.one_pos, fun _ _ _ => List.Perm.refl _, fun _ _ _ => rfl, fun _ _ _ => rfl⟩

end Verif
