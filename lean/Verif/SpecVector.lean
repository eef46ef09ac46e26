import Verif.DeviceVector

/-!
# What a program expects of vectors in device memory
-/

namespace Verif

/-- The values that a program expects: every vector and every raw pointer of the program has its own list of entries. -/
structure DevValues (α : Type) where
  vecs : Nat → Option (List α)
  raws : Nat → Option (List α)

section
variable {α : Type}

def DevAnswer.given : DevAnswer α → Option (List α)
  | .failed => none
  | .null => some []
  | .block _ junk => some junk

/-- The effect of an operation on the values, as for `std::vector`; nothing happens when an allocation fails. -/
def DevValues.step (t : DevValues α) : DevOp α → DevAnswer α → DevValues α
  | .make v _ _, ans => match ans.given with
    | none => t
    | some junk => { t with vecs := Function.update t.vecs v (some junk) }
  | .range v _ w i n, ans => match ans.given with
    | none => t
    | some _ => { t with vecs := Function.update t.vecs v ((t.vecs w).map fun l => (l.drop i).take n) }
  | .copy v w, ans => match ans.given with
    | none => t
    | some _ => { t with vecs := Function.update t.vecs v (t.vecs w) }
  | .move v w, _ => { t with vecs := Function.update (Function.update t.vecs w (some [])) v (t.vecs w) }
  | .assign v w, ans => match ans.given with
    | none => t
    | some _ => { t with vecs := Function.update t.vecs v (t.vecs w) }
  | .moveAssign v w, _ => { t with vecs := Function.update (Function.update t.vecs w (some [])) v (t.vecs w) }
  | .capture v _ r n, _ => ⟨Function.update t.vecs v ((t.raws r).map fun l => l.take n), Function.update t.raws r none⟩
  | .release v r, _ => ⟨Function.update t.vecs v (some []), Function.update t.raws r (t.vecs v)⟩
  | .destroy v, _ => { t with vecs := Function.update t.vecs v none }
  | .discard r _, _ => { t with raws := Function.update t.raws r none }
  | .write v i x, _ => { t with vecs := Function.update t.vecs v ((t.vecs v).map fun l => l.set i x) }

/-- What a correct program does: only new vectors are constructed, only existing ones are used, within their bounds; a raw pointer
is not overwritten. -/
def DevOp.Legal (t : DevValues α) : DevOp α → Prop
  | .make v _ _ => t.vecs v = none
  | .range v _ w i n => t.vecs v = none ∧ ∃ l, t.vecs w = some l ∧ i + n ≤ l.length
  | .copy v w => t.vecs v = none ∧ t.vecs w ≠ none
  | .move v w => t.vecs v = none ∧ t.vecs w ≠ none
  | .assign v w => t.vecs v ≠ none ∧ t.vecs w ≠ none
  | .moveAssign v w => t.vecs v ≠ none ∧ t.vecs w ≠ none
  | .capture v _ r n => t.vecs v = none ∧ ∃ l, t.raws r = some l ∧ n ≤ l.length
  | .release v r => t.vecs v ≠ none ∧ t.raws r = none
  | .destroy v => t.vecs v ≠ none
  | .discard r _ => t.raws r ≠ none
  | .write v i _ => ∃ l, t.vecs v = some l ∧ i < l.length

/-- The number of entries that an operation allocates. -/
def DevOp.request (t : DevValues α) : DevOp α → Option Nat
  | .make _ _ n => some n
  | .range _ _ _ _ n => some n
  | .copy _ w => some ((t.vecs w).getD []).length
  | .assign _ w => some ((t.vecs w).getD []).length
  | _ => none

/-- What the system may answer to a request for `n` entries: new memory, a null pointer for zero entries, a failure. -/
def DevAnswer.Fits (heap : Nat → Option (DevBlock α)) (n : Nat) : DevAnswer α → Prop
  | .failed => True
  | .null => n = 0
  | .block a junk => heap a = none ∧ junk.length = n

/-- The queues that the program names. -/
def DevOp.queues : DevOp α → List Nat
  | .make _ q _ => [q]
  | .range _ q _ _ _ => [q]
  | .capture _ q _ _ => [q]
  | .discard _ q => [q]
  | _ => []

/-- A correct program: with CUDA and ROCm the queues and the answers of the allocations do not matter; with oneAPI there is one queue
and no allocation fails. -/
def DevFine (api : DevApi) (q0 : Nat) : List (DevOp α × DevAnswer α) → DevState α → DevValues α → Prop
  | [], _, _ => True
  | (op, ans) :: rest, st, t => op.Legal t ∧ (∀ n, op.request t = some n → ans.Fits st.heap n) ∧
      (api = .oneapi → (∀ q ∈ op.queues, q = q0) ∧ (op.request t ≠ none → ans.given ≠ none)) ∧
      ∀ st', devStep api st op ans = .ok st' ∨ devStep api st op ans = .throws st' → DevFine api q0 rest st' (t.step op ans)

def DevValues.run : List (DevOp α × DevAnswer α) → DevValues α → DevValues α
  | [], t => t
  | (op, ans) :: rest, t => DevValues.run rest (t.step op ans)

/-- Every vector has the expected values. -/
def DevHolds (st : DevState α) (t : DevValues α) : Prop :=
  ∀ v, match st.vecs v, t.vecs v with
    | none, none => True
    | some d, some l => d.num = l.length ∧ st.entries d = some l
    | _, _ => False

end
end Verif
