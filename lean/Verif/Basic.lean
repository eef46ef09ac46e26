/-!
# Basic data types of the model

Outcomes, triples and boxes.  `/repo/include/heffte_geometry.h` is cited as
`geometry.h`.
-/

namespace Verif

/-- The ways a modelled call can fail to return a value.
`ub` is undefined behaviour of the C++ code (out-of-bounds access, null
dereference, division by zero, failed `std::vector` access), `runtime` is
`std::runtime_error`, `invalid` is `std::invalid_argument`. -/
inductive Err where
  | ub
  | runtime
  | invalid
deriving DecidableEq, Repr

/-- Result of a modelled call. -/
abbrev Res (α : Type) := Except Err α

instance {α : Type} [DecidableEq α] : DecidableEq (Res α) := fun a b =>
  match a, b with
  | .ok x, .ok y => if h : x = y then isTrue (h ▸ rfl) else isFalse (fun h' => h (by injection h'))
  | .error x, .error y => if h : x = y then isTrue (h ▸ rfl) else isFalse (fun h' => h (by injection h'))
  | .ok _, .error _ => isFalse (fun h => by injection h)
  | .error _, .ok _ => isFalse (fun h => by injection h)

/-- The sine and cosine transforms: `stock_cos`, `stock_sin`, `stock_cos1` (`/repo/include/heffte_backend_stock.h`). -/
inductive Trig where
  | cos
  | sin
  | cos1
deriving DecidableEq, Repr

/-- `std::array<T, 3>`. -/
structure A3 (α : Type) where
  x : α
  y : α
  z : α
deriving DecidableEq, Repr

namespace A3
variable {α β γ : Type}

/-- `a[d]` for `d` in `{0,1,2}`. -/
def get (a : A3 α) (d : Fin 3) : α :=
  match d with
  | 0 => a.x
  | 1 => a.y
  | 2 => a.z

instance : CoeFun (A3 α) (fun _ => Fin 3 → α) := ⟨A3.get⟩

/-- The triple with entries `f 0, f 1, f 2`. -/
def of (f : Fin 3 → α) : A3 α := ⟨f 0, f 1, f 2⟩

/-- `a[d] = v`. -/
def set (a : A3 α) (d : Fin 3) (v : α) : A3 α := of (fun e => if e = d then v else a e)

@[simp] theorem get_of (f : Fin 3 → α) (d : Fin 3) : (of f).get d = f d := by
  match d with
  | 0 => rfl
  | 1 => rfl
  | 2 => rfl

@[ext] theorem ext' {a b : A3 α} (h : ∀ d, a.get d = b.get d) : a = b := by
  have h0 := h 0; have h1 := h 1; have h2 := h 2
  cases a; cases b; simp only [get] at h0 h1 h2; subst h0 h1 h2; rfl

@[simp] theorem of_get (a : A3 α) : of (fun d => a.get d) = a := by
  ext d; simp

@[simp] theorem get_zero (a : A3 α) : a.get 0 = a.x := rfl
@[simp] theorem get_one (a : A3 α) : a.get 1 = a.y := rfl
@[simp] theorem get_two (a : A3 α) : a.get 2 = a.z := rfl

theorem get_set (a : A3 α) (d e : Fin 3) (v : α) :
    (a.set d v).get e = if e = d then v else a.get e := by simp [set]

@[simp] theorem get_set_self (a : A3 α) (d : Fin 3) (v : α) : (a.set d v).get d = v := by
  simp [set]

theorem get_set_ne (a : A3 α) {d e : Fin 3} (v : α) (h : e ≠ d) : (a.set d v).get e = a.get e := by
  simp [set, h]

end A3

/-- The three directions, in the order of the C++ loops `for(int i=0; i<3; i++)`. -/
def dims : List (Fin 3) := [0, 1, 2]

@[simp] theorem mem_dims (d : Fin 3) : d ∈ dims := by
  match d with
  | 0 => simp [dims]
  | 1 => simp [dims]
  | 2 => simp [dims]

/-- A storage order is a permutation of the directions ("The order must always
hold a permutation of the entries 0, 1, and 2", geometry.h:65). -/
def IsOrder (o : A3 (Fin 3)) : Prop := o.x ≠ o.y ∧ o.x ≠ o.z ∧ o.y ≠ o.z

instance (o : A3 (Fin 3)) : Decidable (IsOrder o) := by unfold IsOrder; infer_instance

/-- The default order `{0, 1, 2}` (geometry.h:71). -/
def defaultOrder : A3 (Fin 3) := ⟨0, 1, 2⟩

/-- `box3d` (geometry.h:68-133). The member `size` is derived from `low` and
`high` by every constructor, hence it is a function here. -/
structure Box where
  low : A3 Int
  high : A3 Int
  order : A3 (Fin 3)
deriving DecidableEq, Repr

namespace Box

/-- `box3d::size` (geometry.h:71). -/
def size (b : Box) : A3 Int := .of fun d => b.high d - b.low d + 1

/-- `box3d::empty` (geometry.h:85). -/
def empty (b : Box) : Bool := decide (b.size 0 ≤ 0) || decide (b.size 1 ≤ 0) || decide (b.size 2 ≤ 0)

/-- `box3d::count` (geometry.h:87-88). -/
def count (b : Box) : Int := if b.empty then 0 else b.size 0 * b.size 1 * b.size 2

/-- The box `({0,0,0}, {-1,-1,-1})` with default order, built by the two-argument
constructor (geometry.h:70-72). -/
def none3 : Box := ⟨⟨0, 0, 0⟩, ⟨-1, -1, -1⟩, defaultOrder⟩

/-- `box3d::collide` (geometry.h:90-94). -/
def collide (a b : Box) : Box :=
  if a.empty || b.empty then none3
  else ⟨.of fun d => max (a.low d) (b.low d), .of fun d => min (a.high d) (b.high d), a.order⟩

/-- `box3d::r2c` (geometry.h:96-104); the division is exact C++ semantics because
the size is positive when the box is not empty. -/
def r2c (b : Box) (dim : Fin 3) : Box :=
  if b.empty then none3
  else ⟨b.low, b.high.set dim (b.low dim + b.size dim / 2), b.order⟩

/-- `box3d::is2d` (geometry.h:106). -/
def is2d (b : Box) : Bool := b.size 0 == 1 || b.size 1 == 1 || b.size 2 == 1

/-- `box3d::operator ==` (geometry.h:108-115), ignores the order. -/
def sameBounds (a b : Box) : Bool := dims.all fun d => a.low d == b.low d && a.high d == b.high d

/-- `box3d::ordered_same_as` (geometry.h:118-120). -/
def orderedSameAs (a b : Box) : Bool :=
  a.order 0 == b.order 0 && a.order 1 == b.order 1 && a.order 2 == b.order 2

/-- `box3d::find_order` (geometry.h:122). -/
def findOrder (b : Box) (dir : Fin 3) : Fin 3 :=
  if dir = b.order 0 then 0 else if dir = b.order 1 then 1 else 2

/-- `box3d::osize` (geometry.h:124). -/
def osize (b : Box) (d : Fin 3) : Int := b.size (b.order d)

end Box

end Verif
