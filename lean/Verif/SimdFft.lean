import Verif.SimdLemmas

namespace Verif.Stock

/-! ## A map that commutes with the arithmetic commutes with the transforms -/

variable {P K : Type} [Zero P] [One P] [Add P] [Sub P] [Mul P] [Neg P] [Div P] [NatCast P]
  [Zero K] [One K] [Add K] [Sub K] [Mul K] [Neg K] [Div K] [NatCast K]

/-- `φ` commutes with the operations and the constants that the algorithms use. -/
structure LaneMap (φ : P → K) (twP : Tw P) (twK : Tw K) : Prop where
  zero : φ 0 = 0
  one : φ 1 = 1
  add : ∀ x y, φ (x + y) = φ x + φ y
  sub : ∀ x y, φ (x - y) = φ x - φ y
  mul : ∀ x y, φ (x * y) = φ x * φ y
  neg : ∀ x, φ (- x) = - φ x
  div : ∀ x (n : Nat), φ (x / (n : P)) = φ x / (n : K)
  om : ∀ dir p N, φ (twP.om dir p N) = twK.om dir p N
  i : φ twP.i = twK.i
  plus120 : φ twP.plus120 = twK.plus120
  minus120 : φ twP.minus120 = twK.minus120

/-- The array with `φ` applied to all entries. -/
def mapA (φ : P → K) (y : Arr P) : Arr K := fun a => φ (y a)

section
omit [Zero P] [One P] [Add P] [Sub P] [Mul P] [Neg P] [Div P] [NatCast P] [Zero K] [One K] [Add K] [Sub K] [Mul K] [Neg K] [Div K] [NatCast K]

theorem mapA_st (φ : P → K) (y : Arr P) (a : Nat) (v : P) : mapA φ (st y a v) = st (mapA φ y) a (φ v) := by
  funext i
  unfold mapA st
  split <;> rfl

theorem map_st_apply (φ : P → K) (y : Arr P) (a : Nat) (v : P) (b : Nat) : φ (st y a v b) = st (mapA φ y) a (φ v) b := by
  unfold mapA st
  split <;> rfl

theorem mapA_apply (φ : P → K) (y : Arr P) (a : Nat) : mapA φ y a = φ (y a) := rfl

theorem forRange_rel {σ τ : Type} (R : σ → τ → Prop) {f : Nat → σ → σ} {f' : Nat → τ → τ} {lo n : Nat} {s : σ} {t : τ} (h0 : R s t)
    (h : ∀ k s t, R s t → R (f k s) (f' k t)) : R (forRange lo n f s) (forRange lo n f' t) := by
  induction n with
  | zero => exact h0
  | succ n ih => exact h _ _ _ ih

end

variable {φ : P → K} {twP : Tw P} {twK : Tw K}

theorem dftHelper_map (h : LaneMap φ twP twK) (dir : Bool) (N : Nat) (x : Arr P) (xo si : Nat) (y : Arr P) (yo so : Nat) :
    mapA φ (dftHelper twP dir N x xo si y yo so) = dftHelper twK dir N (mapA φ x) xo si (mapA φ y) yo so := by
  unfold dftHelper
  split
  · exact mapA_st ..
  · dsimp only
    refine (forRange_rel (fun (s : Arr P × P × P) (t : Arr K × K × K) => mapA φ s.1 = t.1 ∧ φ s.2.1 = t.2.1 ∧ φ s.2.2 = t.2.2) ?_ ?_).1
    · refine ⟨?_, h.om .., h.om ..⟩
      rw [mapA_st]
      congr 1
      exact forRange_rel (fun s t => φ s = t) rfl (by rintro n s _ rfl; exact h.add _ _)
    · rintro k ⟨a, b, c⟩ ⟨_, _, _⟩ ⟨rfl, rfl, rfl⟩
      refine ⟨?_, by simp only [h.mul, h.om], by simp only [h.mul, h.om]⟩
      dsimp only
      rw [mapA_st]
      congr 1
      refine (forRange_rel (fun (s : P × P) (t : K × K) => φ s.1 = t.1 ∧ φ s.2 = t.2) ⟨rfl, rfl⟩ ?_).1
      rintro n ⟨r, q⟩ ⟨_, _⟩ ⟨rfl, rfl⟩
      simp only [h.add, h.mul, mapA_apply, and_self]

theorem pow2Helper_map (h : LaneMap φ twP twK) (dir : Bool) (N : Nat) : ∀ (x : Arr P) (xo si : Nat) (y : Arr P) (yo so : Nat),
    mapA φ (pow2Helper twP dir N x xo si y yo so) = pow2Helper twK dir N (mapA φ x) xo si (mapA φ y) yo so := by
  induction N using Nat.strongRecOn with
  | ind N ih =>
    intro x xo si y yo so
    rw [pow2Helper, pow2Helper]
    split
    · simp only [mapA_st, h.add, h.sub, mapA_apply]
    · split
      · rfl
      · dsimp only
        rw [← ih (N / 2) (by omega), ← ih (N / 2) (by omega)]
        refine (forRange_rel (fun (s : Arr P × P) (t : Arr K × K) => mapA φ s.1 = t.1 ∧ φ s.2 = t.2) ?_ ?_).1
        · simp only [mapA_st, map_st_apply φ, mapA_apply, h.add, h.sub, h.om, and_self]
        · rintro j ⟨a, b⟩ ⟨_, _⟩ ⟨rfl, rfl⟩
          simp only [mapA_st, map_st_apply φ, mapA_apply, h.add, h.sub, h.mul, h.om, and_self]

theorem butterfly4_map (h : LaneMap φ twP twK) (dir flat : Bool) (y : Arr P) (k0 k1 k2 k3 : Nat) (a0 a1 a2 a3 : P) :
    mapA φ (butterfly4 twP dir flat y k0 k1 k2 k3 a0 a1 a2 a3) =
      butterfly4 twK dir flat (mapA φ y) k0 k1 k2 k3 (φ a0) (φ a1) (φ a2) (φ a3) := by
  cases dir <;> cases flat <;> simp only [butterfly4, mapA_st, h.add, h.sub, h.mul, h.neg, h.i, if_true, Bool.false_eq_true, if_false]

theorem pow4Helper_map (h : LaneMap φ twP twK) (dir : Bool) (N : Nat) : ∀ (x : Arr P) (xo si : Nat) (y : Arr P) (yo so : Nat),
    mapA φ (pow4Helper twP dir N x xo si y yo so) = pow4Helper twK dir N (mapA φ x) xo si (mapA φ y) yo so := by
  induction N using Nat.strongRecOn with
  | ind N ih =>
    intro x xo si y yo so
    rw [pow4Helper, pow4Helper]
    split
    · exact butterfly4_map h ..
    · split
      · rfl
      · dsimp only
        rw [← ih (N / 4) (by omega), ← ih (N / 4) (by omega), ← ih (N / 4) (by omega), ← ih (N / 4) (by omega)]
        refine (forRange_rel (fun (s : Arr P × P × P × P) (t : Arr K × K × K × K) => mapA φ s.1 = t.1 ∧ φ s.2.1 = t.2.1 ∧ φ s.2.2.1 = t.2.2.1 ∧ φ s.2.2.2 = t.2.2.2) ?_ ?_).1
        · simp only [butterfly4_map h, mapA_apply, h.mul, h.om, and_self]
        · rintro j ⟨a, b, c, d⟩ ⟨_, _, _, _⟩ ⟨rfl, rfl, rfl, rfl⟩
          cases dir <;> simp only [mapA_st, map_st_apply φ, mapA_apply, h.add, h.sub, h.mul, h.neg, h.om, h.i, and_self, if_true, Bool.false_eq_true, if_false]

theorem pow3Helper_map (h : LaneMap φ twP twK) (dir : Bool) (p q : P) (N : Nat) : ∀ (x : Arr P) (xo si : Nat) (y : Arr P) (yo so : Nat),
    mapA φ (pow3Helper twP dir p q N x xo si y yo so) = pow3Helper twK dir (φ p) (φ q) N (mapA φ x) xo si (mapA φ y) yo so := by
  induction N using Nat.strongRecOn with
  | ind N ih =>
    intro x xo si y yo so
    rw [pow3Helper, pow3Helper]
    split
    · simp only [mapA_st, h.add, h.mul, mapA_apply]
    · split
      · rfl
      · dsimp only
        rw [← ih (N / 3) (by omega), ← ih (N / 3) (by omega), ← ih (N / 3) (by omega)]
        refine (forRange_rel (fun (s : Arr P × P × P) (t : Arr K × K × K) => mapA φ s.1 = t.1 ∧ φ s.2.1 = t.2.1 ∧ φ s.2.2 = t.2.2) ?_ ?_).1
        · simp only [mapA_st, map_st_apply φ, mapA_apply, h.add, h.mul, h.om, and_self]
        · rintro j ⟨a, b, c⟩ ⟨_, _, _⟩ ⟨rfl, rfl, rfl⟩
          simp only [mapA_st, map_st_apply φ, mapA_apply, h.add, h.mul, h.om, and_self]

/-- The workspaces with `φ` applied to all entries. -/
def mapW (φ : P → K) (W : Nat → Arr P) : Nat → Arr K := fun n => mapA φ (W n)

/-- The result of a node with `φ` applied to all entries. -/
def mapO (φ : P → K) (o : Out P) : Out K := (mapA φ o.1, mapW φ o.2)

omit [Zero P] [One P] [Add P] [Sub P] [Mul P] [Neg P] [Div P] [NatCast P] [Zero K] [One K] [Add K] [Sub K] [Mul K] [Neg K] [Div K] [NatCast K] in
theorem mapW_set (φ : P → K) (W : Nat → Arr P) (n : Nat) (z : Arr P) : mapW φ (setWs W n z) = setWs (mapW φ W) n (mapA φ z) := by
  funext m
  unfold mapW setWs
  split <;> rfl

theorem compositeFFT_map (h : LaneMap φ twP twK) (N N1 N2 n : Nat) {l r : Arr P → Nat → Nat → Arr P → Nat → Nat → (Nat → Arr P) → Out P}
    {l' r' : Arr K → Nat → Nat → Arr K → Nat → Nat → (Nat → Arr K) → Out K}
    (hl : ∀ x xo si y yo so W, mapO φ (l x xo si y yo so W) = l' (mapA φ x) xo si (mapA φ y) yo so (mapW φ W))
    (hr : ∀ x xo si y yo so W, mapO φ (r x xo si y yo so W) = r' (mapA φ x) xo si (mapA φ y) yo so (mapW φ W))
    (dir : Bool) (x : Arr P) (xo si : Nat) (y : Arr P) (yo so : Nat) (W : Nat → Arr P) :
    mapO φ (compositeFFT twP N N1 N2 n l r dir x xo si y yo so W) =
      compositeFFT twK N N1 N2 n l' r' dir (mapA φ x) xo si (mapA φ y) yo so (mapW φ W) := by
  unfold compositeFFT
  dsimp only
  have e := forRange_rel (lo := 0) (n := N1) (fun (s : Arr P × P × (Nat → Arr P)) (t : Arr K × K × (Nat → Arr K)) =>
      mapA φ s.1 = t.1 ∧ φ s.2.1 = t.2.1 ∧ mapW φ s.2.2 = t.2.2)
    (f := fun j1 (s : Arr P × P × (Nat → Arr P)) =>
      (if 0 < j1 then
        (forRange 1 (N2 - 1) (fun k2 (t : Arr P × P) => (st t.1 (j1 * N2 + k2) (t.1 (j1 * N2 + k2) * t.2), t.2 * s.2.1))
          ((r x (xo + j1 * si) (N1 * si) s.1 (N2 * j1) 1 s.2.2).1, s.2.1)).1
      else (r x (xo + j1 * si) (N1 * si) s.1 (N2 * j1) 1 s.2.2).1, s.2.1 * twP.om dir 1 N, (r x (xo + j1 * si) (N1 * si) s.1 (N2 * j1) 1 s.2.2).2))
    (f' := fun j1 (s : Arr K × K × (Nat → Arr K)) =>
      (if 0 < j1 then
        (forRange 1 (N2 - 1) (fun k2 (t : Arr K × K) => (st t.1 (j1 * N2 + k2) (t.1 (j1 * N2 + k2) * t.2), t.2 * s.2.1))
          ((r' (mapA φ x) (xo + j1 * si) (N1 * si) s.1 (N2 * j1) 1 s.2.2).1, s.2.1)).1
      else (r' (mapA φ x) (xo + j1 * si) (N1 * si) s.1 (N2 * j1) 1 s.2.2).1, s.2.1 * twK.om dir 1 N,
        (r' (mapA φ x) (xo + j1 * si) (N1 * si) s.1 (N2 * j1) 1 s.2.2).2))
    (s := (W n, 1, W)) (t := (mapW φ W n, 1, mapW φ W)) ⟨rfl, h.one, rfl⟩ (by
      rintro j1 ⟨a, b, c⟩ ⟨_, _, _⟩ ⟨rfl, rfl, rfl⟩
      dsimp only
      rw [← hr]
      refine ⟨?_, by rw [h.mul, h.om], rfl⟩
      split
      · refine (forRange_rel (fun (s : Arr P × P) (t : Arr K × K) => mapA φ s.1 = t.1 ∧ φ s.2 = t.2) ⟨rfl, rfl⟩ ?_).1
        rintro k2 ⟨a, b⟩ ⟨_, _⟩ ⟨rfl, rfl⟩
        simp only [mapA_st, map_st_apply φ, mapA_apply, h.mul, and_self]
      · rfl)
  obtain ⟨e1, e2, e3⟩ := e
  rw [← e1, ← e3]
  refine forRange_rel (fun s t => mapO φ s = t) ?_ ?_
  · unfold mapO
    dsimp only
    rw [mapW_set]
  · rintro k2 ⟨a, b⟩ _ rfl
    exact hl ..

theorem raderFFT_map (h : LaneMap φ twP twK) (p a ainv n : Nat) {sub : Bool → Arr P → Nat → Nat → Arr P → Nat → Nat → (Nat → Arr P) → Out P}
    {sub' : Bool → Arr K → Nat → Nat → Arr K → Nat → Nat → (Nat → Arr K) → Out K}
    (hs : ∀ d x xo si y yo so W, mapO φ (sub d x xo si y yo so W) = sub' d (mapA φ x) xo si (mapA φ y) yo so (mapW φ W))
    (dir : Bool) (x : Arr P) (xo si : Nat) (y : Arr P) (yo so : Nat) (W : Nat → Arr P) :
    mapO φ (raderFFT twP p a ainv n sub dir x xo si y yo so W) =
      raderFFT twK p a ainv n sub' dir (mapA φ x) xo si (mapA φ y) yo so (mapW φ W) := by
  unfold raderFFT
  dsimp only
  obtain ⟨e1, e2, -⟩ := forRange_rel (lo := 0) (n := p - 1) (fun (s : Arr P × P × Nat) (t : Arr K × K × Nat) =>
      mapA φ s.1 = t.1 ∧ φ s.2.1 = t.2.1 ∧ s.2.2 = t.2.2)
    (f := fun k (s : Arr P × P × Nat) =>
      (st s.1 (yo + k * so) (x (xo + s.2.2 * si)), s.2.1 + st s.1 (yo + k * so) (x (xo + s.2.2 * si)) (yo + k * so), s.2.2 * ainv % p))
    (f' := fun k (s : Arr K × K × Nat) =>
      (st s.1 (yo + k * so) (mapA φ x (xo + s.2.2 * si)), s.2.1 + st s.1 (yo + k * so) (mapA φ x (xo + s.2.2 * si)) (yo + k * so), s.2.2 * ainv % p))
    (s := (y, x xo, 1)) (t := (mapA φ y, mapA φ x xo, 1)) ⟨rfl, rfl, rfl⟩ (by
      rintro k ⟨a, b, c⟩ ⟨_, _, _⟩ ⟨rfl, rfl, rfl⟩
      simp only [mapA_st, map_st_apply φ, mapA_apply, h.add, and_self])
  rw [← e1, ← e2]
  generalize forRange 0 (p - 1) (fun k (s : Arr P × P × Nat) => _) (y, x xo, 1) = s
  have e3 : mapW φ W n = mapA φ (W n) := rfl
  rw [e3, ← hs]
  generalize sub dir s.1 yo so (W n) 0 1 W = o
  obtain ⟨z, W1⟩ := o
  have e4 : ∀ m, φ (forRange 1 (p - 1 - 1) (fun k (c : P × Nat) =>
      (c.1 + twP.om dir (p * (k * m + c.2) - c.2) (p * (p - 1)), c.2 * a % p)) (twP.om dir 1 p, a)).1 =
      (forRange 1 (p - 1 - 1) (fun k (c : K × Nat) =>
      (c.1 + twK.om dir (p * (k * m + c.2) - c.2) (p * (p - 1)), c.2 * a % p)) (twK.om dir 1 p, a)).1 := by
    intro m
    refine (forRange_rel (fun (s : P × Nat) (t : K × Nat) => φ s.1 = t.1 ∧ s.2 = t.2) ⟨h.om .., rfl⟩ ?_).1
    rintro k ⟨a, b⟩ ⟨_, _⟩ ⟨rfl, rfl⟩
    simp only [h.add, h.om, and_self]
  have e5 := forRange_rel (lo := 0) (n := p - 1) (fun (s : Arr P) (t : Arr K) => mapA φ s = t)
    (f := fun m (y : Arr P) => st y (yo + m * so) (z m * (forRange 1 (p - 1 - 1) (fun k (c : P × Nat) =>
      (c.1 + twP.om dir (p * (k * m + c.2) - c.2) (p * (p - 1)), c.2 * a % p)) (twP.om dir 1 p, a)).1))
    (f' := fun m (y : Arr K) => st y (yo + m * so) (mapA φ z m * (forRange 1 (p - 1 - 1) (fun k (c : K × Nat) =>
      (c.1 + twK.om dir (p * (k * m + c.2) - c.2) (p * (p - 1)), c.2 * a % p)) (twK.om dir 1 p, a)).1))
    (s := s.1) (t := mapA φ s.1) rfl (by
      rintro m s _ rfl
      rw [mapA_st, h.mul, e4, mapA_apply])
  simp only [mapO]
  rw [← e5]
  generalize forRange 0 (p - 1) (fun m (y : Arr P) => _) s.1 = y1
  rw [← hs]
  generalize sub (!dir) y1 yo so z 0 1 W1 = o
  obtain ⟨z2, W2⟩ := o
  dsimp only [mapO]
  rw [mapW_set]
  congr 1
  refine (forRange_rel (fun (s : Arr P × Nat) (t : Arr K × Nat) => mapA φ s.1 = t.1 ∧ s.2 = t.2) ⟨mapA_st .., rfl⟩ ?_).1
  rintro k ⟨a, b⟩ ⟨_, _⟩ ⟨rfl, rfl⟩
  simp only [mapA_st, mapA_apply, h.add, h.div, and_self]

theorem fft_map (h : LaneMap φ twP twK) (t : Tree) : ∀ (n : Nat) (dir : Bool) (x : Arr P) (xo si : Nat) (y : Arr P) (yo so : Nat) (W : Nat → Arr P),
    mapO φ (t.fft twP n dir x xo si y yo so W) = t.fft twK n dir (mapA φ x) xo si (mapA φ y) yo so (mapW φ W) := by
  induction t with
  | leaf ty N =>
    intro n dir x xo si y yo so W
    cases ty with
    | pow2 => simp only [Tree.fft, mapO, pow2Helper_map h]
    | pow3 => cases dir <;> simp [Tree.fft, mapO, pow3Helper_map h, h.plus120, h.minus120]
    | pow4 => simp only [Tree.fft, mapO, pow4Helper_map h]
    | discrete => simp only [Tree.fft, mapO, dftHelper_map h]
    | _ => rfl
  | composite N l r ihl ihr =>
    intro n dir x xo si y yo so W
    simp only [Tree.fft]
    exact compositeFFT_map h N l.sz r.sz n (l := l.fft twP (n + 1) dir) (l' := l.fft twK (n + 1) dir) (r := r.fft twP (n + (1 + l.count)) dir)
      (r' := r.fft twK (n + (1 + l.count)) dir) (fun _ _ _ _ _ _ _ => ihl ..) (fun _ _ _ _ _ _ _ => ihr ..) ..
  | rader p a ainv l ih =>
    intro n dir x xo si y yo so W
    simp only [Tree.fft]
    exact raderFFT_map h p a ainv n (sub := l.fft twP (n + 1)) (sub' := l.fft twK (n + 1)) (fun _ _ _ _ _ _ _ _ => ih ..) ..

theorem stockFFT_map (h : LaneMap φ twP twK) (N : Nat) (dir : Bool) (v : List P) (out0 : Arr P) (W : Nat → Arr P) :
    (stockFFT twP N dir v out0 W).map (List.map φ) = stockFFT twK N dir (v.map φ) (mapA φ out0) (mapW φ W) := by
  unfold stockFFT
  cases stockPlan N with
  | error e => rfl
  | ok nodes =>
    simp only [bind, Except.bind, List.length_map]
    split
    · rfl
    · cases loadTree nodes nodes.length 0 with
      | none => rfl
      | some t =>
        simp only [Except.map, List.map_map]
        have e := congrArg Prod.fst (fft_map h t 0 dir (fun n => v.getD n 0) 0 1 out0 0 1 W)
        have e0 : mapA φ (fun n => v.getD n 0) = fun n => (v.map φ).getD n 0 := by
          funext n
          simp only [mapA, List.getD_eq_getElem?_getD, List.getElem?_map]
          cases v[n]? <;> simp [h.zero]
        rw [e0] at e
        rw [← e]
        rfl

end Verif.Stock
