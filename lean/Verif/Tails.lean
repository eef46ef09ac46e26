import Verif.Api
import Verif.R2RCalls
import Verif.TransformLemmas
import Verif.CallData

/-!
# Longer arrays

The transforms on arrays that are longer than needed: if a call returns for some arrays, the same call on these arrays with any entries added
at their ends returns the same arrays with the same entries at the ends.  Every operation of the model accesses single entries with a check of
the bounds, so that this is shown operation by operation.
-/

namespace Verif
variable {α β γ : Type}

/-- If `x` returns, then `x'` returns and the two results are related. -/
def Follows {γ δ : Type} (R : γ → δ → Prop) (x : Res γ) (x' : Res δ) : Prop := ∀ a, x = .ok a → ∃ a', x' = .ok a' ∧ R a a'

theorem Follows.ok {γ δ : Type} {R : γ → δ → Prop} {a : γ} {b : δ} (h : R a b) : Follows R (.ok a) (.ok b) := by
  rintro _ ⟨⟩
  exact ⟨b, rfl, h⟩

theorem Follows.error {γ δ : Type} {R : γ → δ → Prop} {e : Err} {x : Res δ} : Follows R (.error e) x := by
  rintro _ ⟨⟩

theorem Follows.bind {γ δ γ' δ' : Type} {R : γ → δ → Prop} {S : γ' → δ' → Prop} {x : Res γ} {x' : Res δ} {f : γ → Res γ'} {f' : δ → Res δ'}
    (h : Follows R x x') (hf : ∀ a a', R a a' → Follows S (f a) (f' a')) : Follows S (x >>= f) (x' >>= f') := by
  intro b hb
  cases x with
  | error e => cases hb
  | ok a =>
    obtain ⟨a', rfl, h2⟩ := h a rfl
    exact hf a a' h2 b hb

theorem Follows.refl {γ : Type} (x : Res γ) : Follows Eq x x := fun a h => ⟨a, h, rfl⟩

theorem Follows.mono {γ δ : Type} {R S : γ → δ → Prop} {x : Res γ} {x' : Res δ} (h : Follows R x x') (hs : ∀ a a', R a a' → S a a') : Follows S x x' := by
  intro a ha
  obtain ⟨a', h1, h2⟩ := h a ha
  exact ⟨a', h1, hs _ _ h2⟩

theorem Follows.foldlM {γ δ ι : Type} {R : γ → δ → Prop} {f : γ → ι → Res γ} {f' : δ → ι → Res δ}
    (hf : ∀ a a' i, R a a' → Follows R (f a i) (f' a' i)) : ∀ (l : List ι) {a : γ} {a' : δ}, R a a' → Follows R (l.foldlM f a) (l.foldlM f' a')
  | [], _, _, h => Follows.ok h
  | i :: t, a, a', h => by
    rw [List.foldlM_cons, List.foldlM_cons]
    exact (hf a a' i h).bind fun b b' hb => Follows.foldlM hf t hb

theorem Follows.mapM {γ δ ι : Type} {f : ι → Res γ} {f' : ι → Res δ} {R : γ → δ → Prop} (hf : ∀ i, Follows R (f i) (f' i)) :
    ∀ l : List ι, Follows (List.Forall₂ R) (l.mapM f) (l.mapM f')
  | [] => by
    rw [List.mapM_nil, List.mapM_nil]
    exact Follows.ok .nil
  | i :: t => by
    rw [List.mapM_cons, List.mapM_cons]
    exact (hf i).bind fun a a' h => (Follows.mapM hf t).bind fun b b' hb => Follows.ok (.cons h hb)

theorem forall2_eq {γ : Type} {l m : List γ} (h : List.Forall₂ Eq l m) : l = m := by
  induction h with
  | nil => rfl
  | cons h1 _ ih => rw [h1, ih]

/-- Two lists of the same length whose entries are related. -/
def Aligned {γ δ : Type} (R : Nat → γ → δ → Prop) (l : List γ) (l' : List δ) : Prop :=
  l'.length = l.length ∧ ∀ (i : Nat) a a', l[i]? = some a → l'[i]? = some a' → R i a a'

theorem Aligned.zip {γ δ γ' δ' : Type} {R : Nat → γ → δ → Prop} {S : Nat → γ' → δ' → Prop} {l : List γ} {l' : List δ} {m : List γ'} {m' : List δ'}
    (h : Aligned R l l') (h' : Aligned S m m') : Aligned (fun i a a' => R i a.1 a'.1 ∧ S i a.2 a'.2) (l.zip m) (l'.zip m') := by
  refine ⟨by rw [List.length_zip, List.length_zip, h.1, h'.1], fun i a a' ha ha' => ?_⟩
  rw [List.getElem?_zip_eq_some] at ha ha'
  exact ⟨h.2 i _ _ ha.1 ha'.1, h'.2 i _ _ ha.2 ha'.2⟩

theorem Aligned.refl {γ : Type} (l : List γ) : Aligned (fun _ a a' => a' = a) l l :=
  ⟨rfl, fun _ _ _ h h' => Option.some.inj (h'.symm.trans h)⟩

theorem Aligned.mono {γ δ : Type} {R S : Nat → γ → δ → Prop} {l : List γ} {l' : List δ} (h : Aligned R l l')
    (hs : ∀ i a a', l[i]? = some a → R i a a' → S i a a') : Aligned S l l' := ⟨h.1, fun i a a' ha ha' => hs i a a' ha (h.2 i a a' ha ha')⟩

theorem Aligned.eq {γ : Type} {l l' : List γ} (h : Aligned (fun _ a a' => a' = a) l l') : l' = l := by
  refine List.ext_getElem? fun i => ?_
  by_cases hi : i < l.length
  · have e1 := List.getElem?_eq_getElem hi
    have e2 := List.getElem?_eq_getElem (l := l') (i := i) (by rw [h.1]; exact hi)
    rw [e1, e2, h.2 i _ _ e1 e2]
  · rw [List.getElem?_eq_none (by rw [h.1]; omega), List.getElem?_eq_none (by omega)]

theorem mapRes_follows {γ δ γ' δ' : Type} {R : Nat → γ → δ → Prop} {S : Nat → γ' → δ' → Prop} {f : Nat → γ → Res γ'} {f' : Nat → δ → Res δ'} :
    ∀ (l : List γ) (l' : List δ) (k : Nat), l'.length = l.length →
      (∀ (i : Nat) a a', l[i]? = some a → l'[i]? = some a' → Follows (S (k + i)) (f (k + i) a) (f' (k + i) a')) →
      Follows (fun o o' => o'.length = o.length ∧ ∀ (i : Nat) c c', o[i]? = some c → o'[i]? = some c' → S (k + i) c c') (mapRes f k l) (mapRes f' k l')
  | [], [], k, _, _ => Follows.ok ⟨rfl, fun i c c' h => by simp at h⟩
  | [], _ :: _, _, h, _ => by simp at h
  | _ :: _, [], _, h, _ => by simp at h
  | a :: t, a' :: t', k, hl, hf => by
    intro o ho
    simp only [mapRes] at ho ⊢
    have h0 := hf 0 a a' rfl rfl
    rw [Nat.add_zero] at h0
    cases h1 : f k a with
    | error e => rw [h1] at ho; cases ho
    | ok c =>
      rw [h1] at ho
      obtain ⟨c', e1, e2⟩ := h0 c h1
      rw [e1]
      cases h2 : mapRes f (k + 1) t with
      | error e => rw [h2] at ho; cases ho
      | ok cs =>
        rw [h2] at ho
        obtain rfl := Except.ok.inj ho
        obtain ⟨cs', e3, e4, e5⟩ := mapRes_follows (R := R) (S := S) t t' (k + 1) (by simpa using hl)
          (fun i b b' hb hb' => by rw [show k + 1 + i = k + (i + 1) by omega]; exact hf (i + 1) b b' hb hb') cs h2
        rw [e3]
        refine ⟨c' :: cs', rfl, by simp [e4], fun i x x' hx hx' => ?_⟩
        cases i with
        | zero =>
          simp only [List.getElem?_cons_zero, Option.some.injEq] at hx hx'
          subst hx; subst hx'; exact e2
        | succ i =>
          simp only [List.getElem?_cons_succ] at hx hx'
          rw [show k + (i + 1) = k + 1 + i by omega]
          exact e5 i x x' hx hx'

theorem Aligned.mapRes {γ δ γ' δ' : Type} {R : Nat → γ → δ → Prop} {S : Nat → γ' → δ' → Prop} {f : Nat → γ → Res γ'} {f' : Nat → δ → Res δ'} {l : List γ}
    {l' : List δ} (h : Aligned R l l') (hf : ∀ (i : Nat) a a', l[i]? = some a → R i a a' → Follows (S i) (f i a) (f' i a')) :
    Follows (Aligned S) (mapRes f 0 l) (mapRes f' 0 l') := by
  refine (mapRes_follows (R := R) (S := S) l l' 0 h.1 fun i a a' ha ha' => ?_).mono fun o o' ho => ⟨ho.1, fun i c c' hc hc' => ?_⟩
  · rw [Nat.zero_add]
    exact hf i a a' ha (h.2 i a a' ha ha')
  · have := ho.2 i c c' hc hc'
    rwa [Nat.zero_add] at this

/-! ## Single accesses -/

theorem rd_more {l : List α} {a : Int} {v : α} (h : rd l a = some v) (t : List α) : rd (l ++ t) a = some v := by
  unfold rd at h ⊢
  split at h
  · rw [if_pos ‹_›, List.getElem?_append_left (List.getElem?_eq_some_iff.1 h).1, h]
  · cases h

theorem wr_more {l m : List α} {a : Int} {v : α} (h : wr l a v = some m) (t : List α) : wr (l ++ t) a v = some (m ++ t) := by
  unfold wr at h ⊢
  split at h
  · rename_i hc
    rw [if_pos ⟨hc.1, by rw [List.length_append]; push_cast; omega⟩, List.set_append_left _ _ (by omega)]
    obtain rfl := Option.some.inj h
    rfl
  · cases h

/-- The writes that are known stay the same. -/
theorem writeAll_more {t : List α} : ∀ (w w' : List (Int × Option α)) (l : List α), List.Forall₂ (fun x y => y.1 = x.1 ∧ ∀ v, x.2 = some v → y.2 = some v) w w' →
    Follows (fun r r' => r' = r ++ t) (writeAll w l) (writeAll w' (l ++ t))
  | [], _, l, h => by
    cases h
    exact Follows.ok rfl
  | (a, v) :: w, _, l, h => by
    cases h with
    | cons h1 h2 =>
      rename_i y w'
      obtain ⟨b, u⟩ := y
      obtain ⟨e1, e2⟩ := h1
      dsimp only at e1 e2
      subst e1
      cases v with
      | none => exact Follows.error
      | some v =>
        rw [e2 v rfl]
        simp only [writeAll]
        cases hm : wr l b v with
        | none => exact Follows.error
        | some m =>
          rw [wr_more hm]
          exact writeAll_more w w' m h2

theorem forall2_same {γ : Type} {R : γ → γ → Prop} (l : List γ) (h : ∀ x ∈ l, R x x) : List.Forall₂ R l l := List.forall₂_same.2 h

theorem copyMoves_more (moves : List (Int × Int)) (src dst t u : List α) :
    Follows (fun r r' => r' = r ++ t) (copyMoves moves src dst) (copyMoves moves (src ++ u) (dst ++ t)) := by
  unfold copyMoves
  refine writeAll_more _ _ _ ?_
  rw [List.forall₂_map_left_iff, List.forall₂_map_right_iff]
  exact forall2_same _ fun x _ => ⟨rfl, fun v hv => rd_more hv u⟩

/-- The destination is not longer. -/
theorem copyMoves_src (moves : List (Int × Int)) (src dst u : List α) : Follows (fun r r' => r' = r) (copyMoves moves src dst) (copyMoves moves (src ++ u) dst) := by
  have := copyMoves_more moves src dst [] u
  rw [List.append_nil] at this
  exact this.mono fun a a' h => by rw [h, List.append_nil]

/-- The source is not longer. -/
theorem copyMoves_dst (moves : List (Int × Int)) (src dst t : List α) :
    Follows (fun r r' => r' = r ++ t) (copyMoves moves src dst) (copyMoves moves src (dst ++ t)) := by
  have := copyMoves_more moves src dst t []
  rwa [List.append_nil] at this

/-! ## Executors -/

theorem readLine_more {l : List α} {start stride : Int} {n : Nat} {v : List α} (h : readLine l start stride n = some v) (t : List α) :
    readLine (l ++ t) start stride n = some v := by
  unfold readLine at h ⊢
  generalize List.range n = is at h ⊢
  induction is generalizing v with
  | nil => exact h
  | cons i is ih =>
    rw [List.mapM_cons] at h ⊢
    cases h1 : rd l (start + (i : Nat) * stride) with
    | none => rw [h1] at h; cases h
    | some x =>
      rw [h1] at h
      rw [rd_more h1]
      cases h2 : is.mapM (fun (i : Nat) => rd l (start + i * stride)) with
      | none => rw [h2] at h; cases h
      | some y =>
        rw [h2] at h
        rw [ih h2]
        exact h

theorem runLine_more (T : Int × Int → List α → Res (List γ)) (n : Nat) (stride : Int) (src t : List α) (s : Int × Int) :
    Follows Eq (runLine T n stride src s) (runLine T n stride (src ++ t) s) := by
  unfold runLine
  cases h : readLine src s.1 stride n with
  | none => exact Follows.error
  | some v =>
    rw [readLine_more h]
    exact Follows.refl _

theorem runGroup_more (T : Int × Int → List α → Res (List γ)) (n m : Nat) (stride : Int) (src u : List α) (lanes : List (Int × Int)) (dst t : List γ) :
    Follows (fun r r' => r' = r ++ t) (runGroup T n m stride src lanes dst) (runGroup T n m stride (src ++ u) lanes (dst ++ t)) := by
  unfold runGroup
  refine (Follows.mapM (fun s => runLine_more T n stride src u s) lanes).bind fun a a' h => ?_
  obtain rfl := forall2_eq h
  exact writeAll_more _ _ _ (forall2_same _ fun x _ => ⟨rfl, fun _ h => h⟩)

theorem runInPlace_more (T : Int × Int → List α → Res (List α)) (n : Nat) (stride : Int) (t : List α) : ∀ (gs : List (List (Int × Int))) (l : List α),
    Follows (fun r r' => r' = r ++ t) (runInPlace T n stride gs l) (runInPlace T n stride gs (l ++ t))
  | [], l => Follows.ok rfl
  | g :: gs, l => by
    simp only [runInPlace]
    refine (runGroup_more T n n stride l t g l t).bind fun a a' h => ?_
    subst h
    exact runInPlace_more T n stride t gs a

theorem runOut_more (T : Int × Int → List α → Res (List γ)) (n m : Nat) (stride : Int) (src u : List α) (t : List γ) : ∀ (gs : List (List (Int × Int))) (l : List γ),
    Follows (fun r r' => r' = r ++ t) (runOut T n m stride src gs l) (runOut T n m stride (src ++ u) gs (l ++ t))
  | [], l => Follows.ok rfl
  | g :: gs, l => by
    simp only [runOut]
    refine (runGroup_more T n m stride src u g l t).bind fun a a' h => ?_
    subst h
    exact runOut_more T n m stride src u t gs a

theorem linePass_more (T : Int × Int → List α → Res (List α)) (n stride : Int) (starts : List Int) (l t : List α) :
    Follows (fun r r' => r' = r ++ t) (linePass T n stride starts l) (linePass T n stride starts (l ++ t)) := runInPlace_more _ _ _ _ _ _

theorem fftwRank2_more (T : Nat → Int × Int → List α → Res (List α)) (n0 n1 e1 howmany stride dist base : Int) (l t : List α) :
    Follows (fun r r' => r' = r ++ t) (fftwRank2 T n0 n1 e1 howmany stride dist base l) (fftwRank2 T n0 n1 e1 howmany stride dist base (l ++ t)) := by
  unfold fftwRank2
  refine (linePass_more _ _ _ _ l t).bind fun a a' h => ?_
  subst h
  exact linePass_more _ _ _ _ _ _

theorem fftwExec2_more (T : Nat → Int × Int → List α → Res (List α)) (b : Box) (d1 d2 : Fin 3) (base : Int) (l t : List α) :
    Follows (fun r r' => r' = r ++ t) (fftwExec2 T b d1 d2 base l) (fftwExec2 T b d1 d2 base (l ++ t)) := by
  unfold fftwExec2
  dsimp only
  split
  · exact fftwRank2_more _ _ _ _ _ _ _ _ _ _
  · split <;> exact fftwRank2_more _ _ _ _ _ _ _ _ _ _

theorem fftwExec3_more (T : Nat → Int × Int → List α → Res (List α)) (b : Box) (base : Int) (l t : List α) :
    Follows (fun r r' => r' = r ++ t) (fftwExec3 T b base l) (fftwExec3 T b base (l ++ t)) := by
  unfold fftwExec3 fftwRank3
  refine (linePass_more _ _ _ _ l t).bind fun a a' h => ?_
  subst h
  refine (linePass_more _ _ _ _ a t).bind fun a a' h => ?_
  subst h
  exact linePass_more _ _ _ _ _ _

/-- The sine and cosine transforms of the kernel do the same on a longer array. -/
def TrigLocal (K : Kernel α β) : Prop :=
  ∀ tag fwd z b d base l t, Follows (fun r r' => r' = r ++ t) (K.trig tag fwd z b d base l) (K.trig tag fwd z b d base (l ++ t))

variable {K : Kernel α β}

theorem runC2C_more (hK : TrigLocal K) (tag : Tag) (fwd : Bool) (e : Executor) (base : Int) (l t : List α) :
    Follows (fun r r' => r' = r ++ t) (runC2C K tag fwd e base l) (runC2C K tag fwd e base (l ++ t)) := by
  cases e with
  | one b d => exact runInPlace_more _ _ _ _ _ _
  | two b d1 d2 => exact fftwExec2_more _ _ _ _ _ _ _
  | three b => exact fftwExec3_more _ _ _ _ _
  | r2c b d => exact Follows.ok rfl
  | trig z b d => exact hK _ _ _ _ _ _ _ _

theorem execFromReal_more {cast : β → α} {run : List α → Res (List α)} (hr : ∀ l t, Follows (fun r r' => r' = r ++ t) (run l) (run (l ++ t)))
    (total rbase cbase : Int) (src u : List β) (dst t : List α) :
    Follows (fun r r' => r' = r ++ t) (execFromReal cast run total rbase cbase src dst) (execFromReal cast run total rbase cbase (src ++ u) (dst ++ t)) := by
  unfold execFromReal
  refine Follows.bind (writeAll_more (t := t) _ _ _ ?_) fun a a' h => ?_
  · rw [List.forall₂_map_left_iff, List.forall₂_map_right_iff]
    refine forall2_same _ fun x _ => ⟨rfl, fun v hv => ?_⟩
    dsimp only at hv ⊢
    obtain ⟨y, h1, h2⟩ := Option.map_eq_some_iff.1 hv
    rw [rd_more h1]
    exact congrArg some h2
  · subst h
    exact hr a t

theorem execToReal_more {re : α → β} {run : List α → Res (List α)} (hr : ∀ l t, Follows (fun r r' => r' = r ++ t) (run l) (run (l ++ t)))
    (total cbase rbase : Int) (src u : List α) (dst t : List β) :
    Follows (fun r r' => r' = (r.1 ++ u, r.2 ++ t)) (execToReal re run total cbase rbase src dst) (execToReal re run total cbase rbase (src ++ u) (dst ++ t)) := by
  unfold execToReal
  refine (hr src u).bind fun a a' h => ?_
  subst h
  refine Follows.bind (writeAll_more (t := t) _ _ _ ?_) fun b b' h => ?_
  · rw [List.forall₂_map_left_iff, List.forall₂_map_right_iff]
    refine forall2_same _ fun x _ => ⟨rfl, fun v hv => ?_⟩
    dsimp only at hv ⊢
    obtain ⟨y, h1, h2⟩ := Option.map_eq_some_iff.1 hv
    rw [rd_more h1]
    exact congrArg some h2
  · subst h
    exact Follows.ok rfl

theorem runR2C_more (hK : TrigLocal K) (tag : Tag) (e : Executor) (rbase cbase : Int) (src u : List β) (dst t : List α) :
    Follows (fun r r' => r' = r ++ t) (runR2C K tag e rbase cbase src dst) (runR2C K tag e rbase cbase (src ++ u) (dst ++ t)) := by
  cases e with
  | r2c b d => exact runOut_more _ _ _ _ _ _ _ _ _
  | one b d => exact execFromReal_more (runC2C_more hK tag true _ _) _ _ _ _ _ _ _
  | two b d1 d2 => exact execFromReal_more (runC2C_more hK tag true _ _) _ _ _ _ _ _ _
  | three b => exact execFromReal_more (runC2C_more hK tag true _ _) _ _ _ _ _ _ _
  | trig z b d => exact execFromReal_more (runC2C_more hK tag true _ _) _ _ _ _ _ _ _

theorem runC2R_more (hK : TrigLocal K) (tag : Tag) (e : Executor) (cbase rbase : Int) (src u : List α) (dst t : List β) :
    Follows (fun r r' => r' = (r.1 ++ u, r.2 ++ t)) (runC2R K tag e cbase rbase src dst) (runC2R K tag e cbase rbase (src ++ u) (dst ++ t)) := by
  cases e with
  | r2c b d =>
    simp only [runC2R]
    refine Follows.bind (runOut_more _ _ _ _ src u t _ dst) fun a a' h => ?_
    subst h
    exact Follows.ok rfl
  | one b d => exact execToReal_more (runC2C_more hK tag false _ _) _ _ _ _ _ _ _
  | two b d1 d2 => exact execToReal_more (runC2C_more hK tag false _ _) _ _ _ _ _ _ _
  | three b => exact execToReal_more (runC2C_more hK tag false _ _) _ _ _ _ _ _ _
  | trig z b d => exact execToReal_more (runC2C_more hK tag false _ _) _ _ _ _ _ _ _

/-! ## The arrays of a rank -/

/-- What follows after an array: complex and real numbers, according to the type of the array. -/
abbrev Tail (α β : Type) := List α × List β

/-- The array with the entries of the tail. -/
def Data.more (x : Data α β) (t : Tail α β) : Data α β :=
  match x with
  | .inl l => .inl (l ++ t.1)
  | .inr l => .inr (l ++ t.2)

theorem Data.more_nil (x : Data α β) : x.more ([], []) = x := by
  cases x <;> simp [Data.more]

/-- Tails for the arrays of a rank: input and output. -/
abbrev Tails (α β : Type) := Tail α β × Tail α β

def Mem.more (m : Mem α β) (t : Tails α β) : Mem α β := ⟨m.input.more t.1, m.output.more t.2, m.work⟩

/-- The tail of a buffer. -/
def Env.tail (E : Env) (t : Tails α β) : Buf → Tail α β
  | .input => if E.inplace then t.2 else t.1
  | .output => t.2
  | .temp => ([], [])
  | .real => ([], [])

theorem Mem.get_more (E : Env) (m : Mem α β) (t : Tails α β) (b : Buf) : (m.more t).get K E b = (m.get K E b).more (E.tail t b) := by
  cases b with
  | input =>
    simp only [Mem.get, Env.tail]
    split <;> rfl
  | output => rfl
  | temp => exact (Data.more_nil _).symm
  | real => exact (Data.more_nil _).symm

theorem Mem.put_more (E : Env) (m : Mem α β) (t : Tails α β) (b : Buf) (x : Data α β) :
    Follows (fun r r' => r' = r.more t) (m.put K E b x) ((m.more t).put K E b (x.more (E.tail t b))) := by
  cases b with
  | input =>
    simp only [Mem.put, Env.tail]
    split
    · exact Follows.ok rfl
    · exact Follows.error
  | output => exact Follows.ok rfl
  | temp =>
    rw [show E.tail t .temp = ([], []) from rfl, Data.more_nil]
    cases x with
    | inl l => exact Follows.ok rfl
    | inr l => exact Follows.error
  | real =>
    rw [show E.tail t .real = ([], []) from rfl, Data.more_nil]
    cases x with
    | inl l => exact Follows.error
    | inr l => exact Follows.ok rfl

theorem runCall_more (hK : TrigLocal K) (E : Env) (j : Nat) (m : Mem α β) (t : Tails α β) (c : Call) :
    Follows (fun r r' => r' = r.more t) (runCall K E j m c) (runCall K E j (m.more t) c) := by
  unfold runCall
  cases E.execs c.k with
  | none => exact Follows.error
  | some e =>
    dsimp only
    refine (Follows.refl _).bind fun so so' h => ?_
    subst h
    refine (Follows.refl _).bind fun dof dof' h => ?_
    subst h
    rw [Mem.get_more, Mem.get_more]
    cases hs : m.get K E c.src with
    | inl src =>
      cases hd : m.get K E c.dst with
      | inl dst =>
        simp only [Data.more]
        split
        · rename_i hc
          refine Follows.bind (runC2C_more hK _ _ _ _ src (E.tail t c.src).1) fun a a' h => ?_
          subst h
          rw [hc.1]
          exact Mem.put_more E m t c.dst (.inl a)
        · exact Follows.error
      | inr dst =>
        simp only [Data.more]
        refine Follows.bind (runC2R_more hK _ _ _ _ src (E.tail t c.src).1 dst (E.tail t c.dst).2) fun a a' h => ?_
        subst h
        refine Follows.bind (Mem.put_more E m t c.src (.inl a.1)) fun m1 m1' h => ?_
        subst h
        exact Mem.put_more E m1 t c.dst (.inr a.2)
    | inr src =>
      cases hd : m.get K E c.dst with
      | inl dst =>
        simp only [Data.more]
        refine Follows.bind (runR2C_more hK _ _ _ _ src (E.tail t c.src).2 dst (E.tail t c.dst).1) fun a a' h => ?_
        subst h
        exact Mem.put_more E m t c.dst (.inl a)
      | inr dst => exact Follows.error

theorem copyData_more (n : Int) (x y : Data α β) (t u : Tail α β) :
    Follows (fun r r' => r' = Data.more r u) (copyData n x y) (copyData n (x.more t) (y.more u)) := by
  cases x with
  | inl x =>
    cases y with
    | inl y =>
      simp only [copyData, Data.more]
      refine (copyMoves_more _ x y u.1 t.1).bind fun a a' h => ?_
      subst h
      exact Follows.ok rfl
    | inr y => exact Follows.error
  | inr x =>
    cases y with
    | inl y => exact Follows.error
    | inr y =>
      simp only [copyData, Data.more]
      refine (copyMoves_more _ x y u.2 t.2).bind fun a a' h => ?_
      subst h
      exact Follows.ok rfl

theorem runInstr_more (hK : TrigLocal K) (E : Env) (c : Instr) (m : Mem α β) (t : Tails α β) :
    Follows (fun r r' => r' = r.more t) (runInstr K E c m) (runInstr K E c (m.more t)) := by
  cases c with
  | copy k src dst =>
    simp only [runInstr]
    refine (Follows.refl _).bind fun n n' h => ?_
    subst h
    rw [Mem.get_more, Mem.get_more]
    refine (copyData_more _ _ _ _ (E.tail t dst)).bind fun a a' h => ?_
    subst h
    exact Mem.put_more E m t dst a
  | batch calls =>
    simp only [runInstr]
    refine Follows.foldlM (R := fun (r r' : Mem α β) => r' = r.more t) (fun a a' j h => ?_) _ rfl
    subst h
    refine Follows.foldlM (R := fun (r r' : Mem α β) => r' = r.more t) (fun b b' c h => ?_) _ rfl
    subst h
    exact runCall_more hK E j b t c
  | reshape k s d => exact Follows.error

theorem finish_more (hK : TrigLocal K) (E : Env) (t : Tails α β) : ∀ (p : List Instr) (m : Mem α β),
    Follows (fun r r' => r' = r.more t) (finish K E p m) (finish K E p (m.more t))
  | [], m => Follows.ok rfl
  | c :: p, m => by
    simp only [finish]
    refine (runInstr_more hK E c m t).bind fun a a' h => ?_
    subst h
    exact finish_more hK E t p a

theorem advance_more (hK : TrigLocal K) (E : Env) (i : Fin 4) (t : Tails α β) : ∀ (p : List Instr) (m : Mem α β),
    Follows (fun r r' => r' = (r.1, r.2.1, r.2.2.more t)) (advance K E i p m) (advance K E i p (m.more t))
  | [], m => Follows.error
  | c :: p, m => by
    cases c with
    | reshape k s d =>
      simp only [advance]
      split
      · exact Follows.ok rfl
      · exact Follows.error
    | copy k s d =>
      simp only [advance]
      refine (runInstr_more hK E _ m t).bind fun a a' h => ?_
      subst h
      exact advance_more hK E i t p a
    | batch calls =>
      simp only [advance]
      refine (runInstr_more hK E _ m t).bind fun a a' h => ?_
      subst h
      exact advance_more hK E i t p a

/-! ## Reshapes -/

/-- The arrays of a reshape with entries added to source and destination. -/
def MoreArrays (t u : Nat → List γ) (i : Nat) (a a' : Arrays γ) : Prop := a' = ⟨a.src ++ t i, a.dst ++ u i, a.ws⟩

theorem runJobs_more (jobs : List Job) {mems mems' : List (Arrays γ)} {t u : Nat → List γ} (h : Aligned (MoreArrays t u) mems mems') :
    Follows (Aligned fun i d d' => d' = d ++ u i) (runJobs jobs mems) (runJobs jobs mems') := by
  unfold runJobs
  have hj := (Aligned.refl jobs).zip h
  refine Follows.bind (hj.mapRes (S := fun _ a a' => a' = a) fun i a a' _ hr => ?_) fun packed packed' hp => ?_
  · obtain ⟨h1, h2⟩ := hr
    unfold MoreArrays at h2
    rw [h1, h2]
    exact copyMoves_src _ _ _ _
  obtain rfl := hp.eq
  split
  · exact Follows.error
  refine (Follows.refl _).bind fun received received' hr => ?_
  subst hr
  refine Follows.bind ((hj.zip (Aligned.refl received)).mapRes (S := fun _ a a' => a' = a) fun i a a' _ hr => ?_) fun wss wss' hw => ?_
  · obtain ⟨⟨h1, h2⟩, h3⟩ := hr
    unfold MoreArrays at h2
    rw [h1, h2, h3]
    exact copyMoves_src _ _ _ _
  obtain rfl := hw.eq
  refine (hj.zip (Aligned.refl wss')).mapRes (S := fun i d d' => d' = d ++ u i) fun i a a' _ hr => ?_
  obtain ⟨⟨h1, h2⟩, h3⟩ := hr
  unfold MoreArrays at h2
  rw [h1, h2, h3]
  exact copyMoves_dst _ _ _ _

theorem transposeLocal_more (stride nb : Nat) (plan : PackPlan) (inplace : Bool) (m : Arrays γ) (t u : List γ) :
    Follows (fun d d' => d' = d ++ u) (transposeLocal stride nb plan inplace m) (transposeLocal stride nb plan inplace ⟨m.src ++ t, m.dst ++ u, m.ws⟩) := by
  unfold transposeLocal
  dsimp only
  split
  · refine (copyMoves_src _ m.src m.ws t).bind fun a a' h => ?_
    subst h
    exact copyMoves_dst _ _ _ _
  · exact copyMoves_more _ _ _ _ _

theorem reshapeAll_more (stride nb : Nat) (done : Nat → List Nat) (inplace : Nat → Bool) (shs : List (Option Shaper)) {mems mems' : List (Arrays γ)}
    {t u : Nat → List γ} (h : Aligned (MoreArrays t u) mems mems') :
    Follows (Aligned fun i d d' => d' = d ++ u i) (reshapeAll stride nb done inplace shs mems) (reshapeAll stride nb done inplace shs mems') := by
  unfold reshapeAll
  refine (runJobs_more _ h).bind fun moved moved' hm => ?_
  refine (((Aligned.refl shs).zip h).zip hm).mapRes (S := fun i d d' => d' = d ++ u i) fun i a a' _ hr => ?_
  obtain ⟨⟨h1, h2⟩, h3⟩ := hr
  obtain ⟨⟨a1, a2⟩, a3⟩ := a
  obtain ⟨⟨b1, b2⟩, b3⟩ := a'
  dsimp only at h1 h2 h3 ⊢
  unfold MoreArrays at h2
  subst h1 h2 h3
  split
  · exact transposeLocal_more _ _ _ _ _ _ _
  · exact Follows.ok rfl

/-- The ports of the two kinds of reshapes: the arrays are those with the tails of their buffers. -/
structure PortMore (E : Env) (t : Tails α β) (port : Port α β γ) (pick : Tail α β → List γ) : Prop where
  arrays : ∀ m sd a, port.arrays m sd = some a → port.arrays (m.more t) sd = some ⟨a.src ++ pick (E.tail t sd.1), a.dst ++ pick (E.tail t sd.2), a.ws⟩
  put : ∀ m sd d, Follows (fun r r' => r' = r.more t) (port.put m sd d) (port.put (m.more t) sd (d ++ pick (E.tail t sd.2)))

theorem complexPort_more (K : Kernel α β) (E : Env) (t : Tails α β) (junk : List α → List α) : PortMore E t (complexPort K E junk) Prod.fst := by
  refine ⟨fun m sd a ha => ?_, fun m sd d => ?_⟩
  · simp only [complexPort] at ha ⊢
    rw [Mem.get_more, Mem.get_more]
    cases h1 : m.get K E sd.1 with
    | inr s => rw [h1] at ha; cases ha
    | inl s =>
      cases h2 : m.get K E sd.2 with
      | inr d => rw [h1, h2] at ha; cases ha
      | inl d =>
        rw [h1, h2] at ha
        obtain rfl := Option.some.inj ha
        rfl
  · simp only [complexPort]
    refine Follows.bind (Mem.put_more E m t sd.2 (.inl d)) fun a a' h => ?_
    subst h
    exact Follows.ok rfl

theorem realPort_more (K : Kernel α β) (E : Env) (t : Tails α β) (q : Int) (junk : List β → List β) : PortMore E t (realPort K E q junk) Prod.snd := by
  have get : ∀ (m : Mem α β) (b : Buf) l, (if b = .real then (.inr (K.toReals (m.work.take (E.nb * q).toNat)) : Data α β) else m.get K E b) = .inr l →
      (if b = .real then (.inr (K.toReals ((m.more t).work.take (E.nb * q).toNat)) : Data α β) else (m.more t).get K E b) = .inr (l ++ (E.tail t b).2) := by
    intro m b l h
    by_cases hb : b = .real
    · rw [if_pos hb] at h ⊢
      obtain rfl := Sum.inr_injective h
      rw [hb]
      exact congrArg Sum.inr (List.append_nil _).symm
    · rw [if_neg hb] at h ⊢
      rw [Mem.get_more, h]
      rfl
  refine ⟨fun m sd a ha => ?_, fun m sd d => ?_⟩
  · simp only [realPort] at ha ⊢
    generalize h1 : (if sd.1 = .real then (.inr (K.toReals (m.work.take (E.nb * q).toNat)) : Data α β) else m.get K E sd.1) = x at ha
    generalize h2 : (if sd.2 = .real then (.inr (K.toReals (m.work.take (E.nb * q).toNat)) : Data α β) else m.get K E sd.2) = y at ha
    cases x with
    | inl s => cases ha
    | inr s =>
      cases y with
      | inl d => cases ha
      | inr d =>
        obtain rfl := Option.some.inj ha
        rw [get m _ s h1, get m _ d h2]
        rfl
  · simp only [realPort]
    by_cases hb : sd.2 = .real
    · rw [if_pos hb, if_pos hb, hb, show (E.tail t .real).2 = ([] : List β) from rfl, List.append_nil]
      exact Follows.ok rfl
    · rw [if_neg hb, if_neg hb]
      refine Follows.bind (Mem.put_more E m t sd.2 (.inr d)) fun a a' h => ?_
      subst h
      exact Follows.ok rfl

/-- The state with longer arrays. -/
def MoreState (t : Nat → Tails α β) (i : Nat) (x x' : List Instr × Mem α β) : Prop := x' = (x.1, x.2.more (t i))

theorem runStage_more (hK : TrigLocal K) (env : Nat → Env) (port : Nat → Port α β γ) (pick : Tail α β → List γ) (t : Nat → Tails α β)
    (hp : ∀ r, PortMore (env r) (t r) (port r) pick) (i : Fin 4) (stride nb : Nat) (done : Nat → List Nat) (shs : List (Option Shaper)) {sts sts' : State α β}
    (h : Aligned (MoreState t) sts sts') :
    Follows (Aligned (MoreState t)) (runStage K env port i stride nb done shs sts) (runStage K env port i stride nb done shs sts') := by
  unfold runStage
  split
  · exact Follows.ok h
  refine Follows.bind (((Aligned.refl shs).zip h).mapRes (S := fun r a a' => a' = (a.1, a.2.1, a.2.2.more (t r))) fun r a a' _ hr => ?_) fun adv adv' ha => ?_
  · obtain ⟨a1, a2, a3⟩ := a
    obtain ⟨b1, b2, b3⟩ := a'
    obtain ⟨h1, h2⟩ := hr
    dsimp only at h1
    unfold MoreState at h2
    simp only [Prod.mk.injEq] at h2
    obtain ⟨rfl, rfl⟩ := h2
    subst h1
    unfold stageAdvance
    dsimp only
    cases b1 with
    | none => exact Follows.ok rfl
    | some sh =>
      dsimp only
      intro x hx
      cases hadv : advance K (env r) i b2 a3 with
      | error e => rw [hadv] at hx; cases hx
      | ok y =>
        obtain ⟨y', e1, e2⟩ := advance_more hK (env r) i (t r) b2 a3 y hadv
        rw [hadv] at hx
        obtain rfl := Except.ok.inj hx
        rw [e1, e2]
        exact ⟨_, rfl, rfl⟩
  let tail : Bool → Nat → List γ := fun second r =>
    match (adv[r]?).bind fun x => x.2.1 with
    | some sd => pick ((env r).tail (t r) (if second then sd.2 else sd.1))
    | none => []
  refine Follows.bind (ha.mapRes (S := MoreArrays (tail false) (tail true)) fun r a a' hget hr => ?_) fun arrs arrs' harr => ?_
  · subst hr
    obtain ⟨a1, a2, a3⟩ := a
    unfold stageArrays MoreArrays
    dsimp only
    cases a2 with
    | none =>
      have : ∀ b, tail b r = [] := fun b => by simp only [tail, hget, Option.bind_some]
      rw [this, this]
      exact Follows.ok (by simp)
    | some sd =>
      have e : ∀ b, tail b r = pick ((env r).tail (t r) (if b then sd.2 else sd.1)) := fun b => by simp only [tail, hget, Option.bind_some]
      dsimp only
      intro x hx
      cases hpa : (port r).arrays a3 sd with
      | none => rw [hpa] at hx; cases hx
      | some y =>
        rw [hpa] at hx
        obtain rfl := Except.ok.inj hx
        rw [(hp r).arrays a3 sd y hpa, e, e]
        exact ⟨_, rfl, rfl⟩
  have hin : stageInplace env adv' = stageInplace env adv := by
    funext r
    unfold stageInplace
    by_cases hr : r < adv.length
    · have g1 := List.getElem?_eq_getElem hr
      have g2 := List.getElem?_eq_getElem (l := adv') (i := r) (by rw [ha.1]; exact hr)
      rw [g1, g2, ha.2 r _ _ g1 g2]
      rfl
    · rw [List.getElem?_eq_none (by rw [ha.1]; omega), List.getElem?_eq_none (by omega)]
  rw [hin]
  refine (reshapeAll_more stride nb done _ shs harr).bind fun dsts dsts' hd => ?_
  refine (ha.zip hd).mapRes (S := MoreState t) fun r a a' hget hr => ?_
  obtain ⟨⟨a1, a2, a3⟩, d⟩ := a
  obtain ⟨b, d'⟩ := a'
  obtain ⟨h1, h2⟩ := hr
  dsimp only at h1 h2
  subst h1 h2
  rw [List.getElem?_zip_eq_some] at hget
  unfold stagePut MoreState
  dsimp only
  cases a2 with
  | none => exact Follows.ok rfl
  | some sd =>
    have e : tail true r = pick ((env r).tail (t r) sd.2) := by
      simp only [tail, hget.1, Option.bind_some, if_true]
    rw [e]
    dsimp only
    intro x hx
    cases hpp : (port r).put a3 sd d with
    | error e => rw [hpp] at hx; cases hx
    | ok m =>
      rw [hpp] at hx
      obtain rfl := Except.ok.inj hx
      obtain ⟨m', e1, e2⟩ := (hp r).put a3 sd d m hpp
      rw [e1, e2]
      exact ⟨_, rfl, rfl⟩

/-- The arrays of all ranks with tails. -/
def MoreMem (t : Nat → Tails α β) (i : Nat) (m m' : Mem α β) : Prop := m' = m.more (t i)

theorem transform_more (hK : TrigLocal K) (W : World α β) (mode : Mode) (o : Fft) (fwd : Bool) (nb : Nat) (inplace : Nat → Bool) (t : Nat → Tails α β)
    {mems mems' : List (Mem α β)} (h : Aligned (MoreMem t) mems mems') :
    Follows (Aligned (MoreMem t)) (transform K W mode o fwd nb inplace mems) (transform K W mode o fwd nb inplace mems') := by
  unfold transform
  refine Follows.bind (h.mapRes (S := MoreState t) fun r m m' _ hm => ?_) fun s s' hs => ?_
  · refine (Follows.refl _).bind fun p p' hpp => ?_
    subst hpp
    unfold MoreMem at hm
    subst hm
    exact Follows.ok rfl
  have rs := fun (i : Fin 4) {s s' : State α β} (hs : Aligned (MoreState t) s s') =>
    runStage_more hK (o.env fwd nb inplace) (fun r => realPort K (o.env fwd nb inplace r) (realCut mode (o.env fwd nb inplace r).execs) (W.junkReal i r)) _ t
      (fun r => realPort_more K _ _ _ _) i W.stride nb (W.done i) (o.shapers fwd i) hs
  have cs := fun (i : Fin 4) {s s' : State α β} (hs : Aligned (MoreState t) s s') =>
    runStage_more hK (o.env fwd nb inplace) (fun r => complexPort K (o.env fwd nb inplace r) (W.junk i r)) _ t
      (fun r => complexPort_more K _ _ _) i W.stride nb (W.done i) (o.shapers fwd i) hs
  have last : ∀ s s', Aligned (MoreState t) s s' → Follows (Aligned (MoreMem t))
      (mapRes (fun r (x : List Instr × Mem α β) => finish K (o.env fwd nb inplace r) x.1 x.2) 0 s)
      (mapRes (fun r (x : List Instr × Mem α β) => finish K (o.env fwd nb inplace r) x.1 x.2) 0 s') := fun s s' hs =>
    hs.mapRes (S := MoreMem t) fun r x x' _ hx => by
      unfold MoreState at hx
      subst hx
      exact finish_more hK _ _ _ _
  by_cases h1 : mode = .r2c
  · by_cases h2 : mode = .c2r
    · simp only [if_pos h1, if_pos h2]
      exact (rs 0 hs).bind fun s s' hs => (cs 1 hs).bind fun s s' hs => (cs 2 hs).bind fun s s' hs => (rs 3 hs).bind last
    · simp only [if_pos h1, if_neg h2]
      exact (rs 0 hs).bind fun s s' hs => (cs 1 hs).bind fun s s' hs => (cs 2 hs).bind fun s s' hs => (cs 3 hs).bind last
  · by_cases h2 : mode = .c2r
    · simp only [if_neg h1, if_pos h2]
      exact (cs 0 hs).bind fun s s' hs => (cs 1 hs).bind fun s s' hs => (cs 2 hs).bind fun s s' hs => (rs 3 hs).bind last
    · simp only [if_neg h1, if_neg h2]
      exact (cs 0 hs).bind fun s s' hs => (cs 1 hs).bind fun s s' hs => (cs 2 hs).bind fun s s' hs => (cs 3 hs).bind last

theorem scaleList_more (f : γ → γ) (n : Int) (l t : List γ) : Follows (fun r r' => r' = r ++ t) (scaleList f n l) (scaleList f n (l ++ t)) := by
  unfold scaleList
  by_cases hn : n ≤ l.length
  · rw [if_pos hn, if_pos (by rw [List.length_append]; push_cast; omega), List.take_append_of_le_length (by omega), List.drop_append_of_le_length (by omega),
      ← List.append_assoc]
    exact Follows.ok rfl
  · rw [if_neg hn]
    exact Follows.error

theorem applyScale_more (f : ℝ → α → α) (g : ℝ → β → β) (o : Object) (fwd : Bool) (nb : Nat) (s : Scaling) (r : Nat) (m : Mem α β) (t : Tails α β) :
    Follows (fun m m' => m' = m.more t) (applyScale f g o fwd nb s r m) (applyScale f g o fwd nb s r (m.more t)) := by
  unfold applyScale
  split
  · refine Follows.bind (R := fun d d' => d' = Data.more d t.2) ?_ fun a a' h => ?_
    · show Follows _ (scaleData _ _ _ m.output) (scaleData _ _ _ (m.output.more t.2))
      cases m.output with
      | inl l =>
        refine Follows.bind (scaleList_more _ _ l t.2.1) fun a a' h => ?_
        subst h
        exact Follows.ok rfl
      | inr l =>
        refine Follows.bind (scaleList_more _ _ l t.2.2) fun a a' h => ?_
        subst h
        exact Follows.ok rfl
    · subst h
      exact Follows.ok rfl
  · exact Follows.ok rfl

theorem call_more (hK : TrigLocal K) (f : ℝ → α → α) (g : ℝ → β → β) (W : World α β) (mode : Mode) (ob : Object) (fwd : Bool) (nb : Nat) (inplace : Nat → Bool)
    (s : Scaling) (t : Nat → Tails α β) {mems mems' : List (Mem α β)} (h : Aligned (MoreMem t) mems mems') :
    Follows (Aligned (MoreMem t)) (ob.call K f g W mode fwd nb inplace s mems) (ob.call K f g W mode fwd nb inplace s mems') := by
  unfold Object.call
  refine (transform_more hK W mode ob.fft fwd nb inplace t h).bind fun ms ms' hm => ?_
  refine hm.mapRes (S := MoreMem t) fun r m m' _ hr => ?_
  unfold MoreMem at hr
  subst hr
  exact applyScale_more _ _ _ _ _ _ _ _ _

/-! ## The sine and cosine transforms -/

/-- The same writes, some of them with a value that the others do not have. -/
abbrev MoreWrites {δ : Type} : List (Int × Option δ) → List (Int × Option δ) → Prop :=
  List.Forall₂ fun x y => y.1 = x.1 ∧ ∀ v, x.2 = some v → y.2 = some v

theorem forall2_map {δ ε : Type} {R : ε → ε → Prop} {f f' : δ → ε} (l : List δ) (h : ∀ i, R (f i) (f' i)) : List.Forall₂ R (l.map f) (l.map f') := by
  induction l with
  | nil => exact .nil
  | cons a l ih => exact .cons (h a) ih

theorem forall2_flatMap {δ ε : Type} {R : ε → ε → Prop} {f f' : δ → List ε} (l : List δ) (h : ∀ i, List.Forall₂ R (f i) (f' i)) :
    List.Forall₂ R (l.flatMap f) (l.flatMap f') := by
  induction l with
  | nil => exact .nil
  | cons a l ih =>
    rw [List.flatMap_cons, List.flatMap_cons]
    exact List.rel_append (h a) ih

theorem forall2_self {ε : Type} {R : ε → ε → Prop} (l : List ε) (h : ∀ a, R a a) : List.Forall₂ R l l := by
  induction l with
  | nil => exact .nil
  | cons a l ih => exact .cons (h a) ih

theorem map_some_of {δ ε : Type} {x x' : Option δ} (h : ∀ v, x = some v → x' = some v) (f : δ → ε) : ∀ v, x.map f = some v → x'.map f = some v := by
  intro v hv
  cases x with
  | none => cases hv
  | some y => rw [h y rfl]; exact hv

theorem runStmts_more (base : Int) : ∀ (w w' : List (Int × Val β)) (l : List β),
    List.Forall₂ (fun x y => y.1 = x.1 ∧ ∀ m v, x.2.read base m = some v → y.2.read base m = some v) w w' →
    Follows Eq (runStmts base w l) (runStmts base w' l)
  | [], _, l, h => by
    cases h
    exact Follows.refl _
  | (a, v) :: w, _, l, h => by
    cases h with
    | cons h1 h2 =>
      rename_i y w'
      obtain ⟨a', v'⟩ := y
      obtain ⟨e1, e2⟩ := h1
      dsimp only at e1 e2
      subst e1
      simp only [runStmts]
      cases hv : v.read base l with
      | none => exact Follows.error
      | some x =>
        rw [e2 l x hv]
        dsimp only
        cases wr l (base + a') x with
        | none => exact Follows.error
        | some m => exact runStmts_more base w w' m h2

section
variable [Zero β] [Neg β]

theorem preForward_more (base : Int) (z : Trig) (n : Int) {x x' : Int → Option β} (h : ∀ k v, x k = some v → x' k = some v) :
    List.Forall₂ (fun a b : Int × Val β => b.1 = a.1 ∧ ∀ m v, a.2.read base m = some v → b.2.read base m = some v) (preForward z n x) (preForward z n x') := by
  cases z with
  | cos =>
    refine List.rel_append (List.rel_append (forall2_flatMap _ fun i => .cons ⟨rfl, fun _ _ hv => hv⟩ (.cons ⟨rfl, fun _ v hv => h i v hv⟩ .nil))
      (forall2_self _ fun _ => ⟨rfl, fun _ _ hv => hv⟩)) (forall2_self _ fun _ => ⟨rfl, fun _ _ hv => hv⟩)
  | sin =>
    refine List.rel_append (List.rel_append (forall2_flatMap _ fun i => .cons ⟨rfl, fun _ _ hv => hv⟩ (.cons ⟨rfl, fun _ v hv => h i v hv⟩ .nil))
      (forall2_self _ fun _ => ⟨rfl, fun _ _ hv => hv⟩))
      (forall2_flatMap _ fun i => .cons ⟨rfl, fun _ _ hv => hv⟩ (.cons ⟨rfl, fun _ v hv => map_some_of (h i) _ v hv⟩ .nil))
  | cos1 =>
    refine List.rel_append (forall2_flatMap _ fun i => .cons ⟨rfl, fun _ v hv => h i v hv⟩ (.cons ⟨rfl, fun _ _ hv => hv⟩ .nil))
      (forall2_flatMap _ fun i => .cons ⟨rfl, fun _ v hv => h i v hv⟩ (.cons ⟨rfl, fun _ _ hv => hv⟩ .nil))

theorem preBackward_more (K : Kernel α β) (z : Trig) (n : Int) {x x' : Int → Option β} (h : ∀ k v, x k = some v → x' k = some v) :
    MoreWrites (preBackward K z n x) (preBackward K z n x') := by
  cases z with
  | cos =>
    exact List.rel_append (List.rel_append (forall2_map _ fun i => ⟨rfl, map_some_of (h i) _⟩) (forall2_self _ fun _ => ⟨rfl, fun _ hv => hv⟩))
      (forall2_map _ fun i => ⟨rfl, map_some_of (h _) _⟩)
  | sin =>
    exact List.rel_append (List.rel_append (List.rel_append (forall2_self _ fun _ => ⟨rfl, fun _ hv => hv⟩) (forall2_map _ fun i => ⟨rfl, map_some_of (h i) _⟩))
      (forall2_self _ fun _ => ⟨rfl, fun _ hv => hv⟩)) (forall2_map _ fun i => ⟨rfl, map_some_of (h _) _⟩)
  | cos1 =>
    exact List.rel_append (forall2_map _ fun i => ⟨rfl, map_some_of (h i) _⟩) (forall2_map _ fun i => ⟨rfl, map_some_of (h _) _⟩)

theorem shiftBy_more {δ : Type} (base : Int) {w w' : List (Int × Option δ)} (h : MoreWrites w w') : MoreWrites (shiftBy base w) (shiftBy base w') := by
  induction h with
  | nil => exact .nil
  | cons h1 _ ih => exact .cons ⟨congrArg (base + ·) h1.1, h1.2⟩ ih

theorem runR2R_more (K : Kernel α β) (tag : Tag) (z : Trig) (fwd : Bool) (b : Box) (d : Fin 3) (base : Int) (ws data t : List β) :
    Follows (fun r r' => r' = r ++ t) (runR2R K tag z fwd b d base ws data) (runR2R K tag z fwd b d base ws (data ++ t)) := by
  have same : ∀ {δ : Type} (w : List (Int × Option δ)), MoreWrites w w := fun w => forall2_self _ fun _ => ⟨rfl, fun _ hv => hv⟩
  cases fwd with
  | true =>
    simp only [runR2R, if_true, forwardR2R]
    split
    · exact Follows.error
    refine Follows.bind (R := Eq) (Follows.foldlM (fun a a' i h => ?_) _ rfl) fun a a' h => ?_
    · subst h
      exact runStmts_more _ _ _ _ (preForward_more _ _ _ fun k v hv => rd_more hv t)
    subst h
    refine Follows.bind (Follows.refl _) fun c c' h => ?_
    subst h
    refine Follows.foldlM (R := fun (r r' : List β) => r' = r ++ t) (fun a a' i h => ?_) _ rfl
    subst h
    exact writeAll_more _ _ _ (same _)
  | false =>
    simp only [runR2R, Bool.false_eq_true, if_false, backwardR2R]
    split
    · exact Follows.error
    refine Follows.bind (R := Eq) (Follows.foldlM (fun a a' i h => ?_) _ rfl) fun a a' h => ?_
    · subst h
      have := writeAll_more (t := []) _ _ a (shiftBy_more (i * (z.extended (b.osize 0) / 2 + 1))
        (preBackward_more K z (b.osize 0) (x := fun k => rd data (base + i * b.osize 0 + k)) (x' := fun k => rd (data ++ t) (base + i * b.osize 0 + k)) fun k v hv => rd_more hv t))
      simp only [List.append_nil] at this
      exact this.mono fun _ _ h => h.symm
    subst h
    refine Follows.bind (Follows.refl _) fun c c' h => ?_
    subst h
    refine Follows.foldlM (R := fun (r r' : List β) => r' = r ++ t) (fun a a' i h => ?_) _ rfl
    subst h
    exact writeAll_more _ _ _ (same _)

end

theorem trigKernel_local (K : Kernel ℂ ℝ) (ws : Tag → List ℝ) : TrigLocal (trigKernel K ws) :=
  fun tag fwd z b d base l t => runR2R_more K tag z fwd b d base (ws tag) l t

end Verif
