/-!
# Effects

Computations that read and write a world `W`, may raise, and may run out of fuel.
-/

namespace Verif

/-- Python exceptions. `exception` is an explicit `raise Exception(...)` in the library; the others are
raised by the interpreter. Texts are abbreviated. -/
inductive Err where
  | exception (msg : String)
  | typeError
  | keyError
  | indexError
  | attributeError
  | zeroDivision
  | runtimeError
  | valueError
  deriving DecidableEq, Repr, Inhabited

/-- Outcome of running Python code from a world: a result, an exception (the world keeps the effects made
before the exception), or `oof`: the run has not finished within the allotted depth. -/
inductive Res (W α : Type) where
  | ok (w : W) (a : α)
  | err (w : W) (e : Err)
  | oof
  deriving Repr, DecidableEq

deriving instance DecidableEq for Except

/-- Effectful computation. -/
def M (W α : Type) := W → Res W α

namespace M
variable {W α β : Type}

/-- Return a value. -/
def pure (a : α) : M W α := fun w => .ok w a
/-- Sequencing; exceptions and `oof` propagate. -/
def bind (x : M W α) (f : α → M W β) : M W β := fun w =>
  match x w with
  | .ok w' a => f a w'
  | .err w' e => .err w' e
  | .oof => .oof
/-- `raise`. -/
def throw (e : Err) : M W α := fun w => .err w e
/-- Run out of fuel. -/
def oof : M W α := fun _ => .oof
/-- Read the world. -/
def get : M W W := fun w => .ok w w
/-- Write the world. -/
def set (w : W) : M W Unit := fun _ => .ok w ()
/-- Read the world through a function. -/
def gets (f : W → α) : M W α := fun w => .ok w (f w)
/-- Change the world. -/
def modify (f : W → W) : M W Unit := fun w => .ok (f w) ()
/-- Lift a result that may be an exception. -/
def lift (x : Except Err α) : M W α :=
  match x with
  | .ok a => pure a
  | .error e => throw e

instance : Monad (M W) where
  pure := pure
  bind := bind

@[simp] theorem pure_run (a : α) (w : W) : (Pure.pure a : M W α) w = .ok w a := rfl
theorem pure_run' (a : α) (w : W) : (M.pure a : M W α) w = .ok w a := rfl
@[simp] theorem throw_run (e : Err) (w : W) : (throw e : M W α) w = .err w e := rfl
@[simp] theorem oof_run (w : W) : (oof : M W α) w = .oof := rfl
@[simp] theorem gets_run (f : W → α) (w : W) : gets f w = .ok w (f w) := rfl
@[simp] theorem modify_run (f : W → W) (w : W) : modify f w = .ok (f w) () := rfl

theorem bind_run (x : M W α) (f : α → M W β) (w : W) :
    (x >>= f) w = match x w with
      | .ok w' a => f a w'
      | .err w' e => .err w' e
      | .oof => .oof := rfl

theorem bind_ok {x : M W α} {f : α → M W β} {w w' : W} {a : α} (h : x w = .ok w' a) :
    (x >>= f) w = f a w' := by rw [bind_run, h]

theorem bind_err {x : M W α} {f : α → M W β} {w w' : W} {e : Err} (h : x w = .err w' e) :
    (x >>= f) w = .err w' e := by rw [bind_run, h]

theorem bind_eq_ok {x : M W α} {f : α → M W β} {w w' : W} {b : β} :
    (x >>= f) w = .ok w' b ↔ ∃ w1 a, x w = .ok w1 a ∧ f a w1 = .ok w' b := by
  rw [bind_run]
  cases h : x w with
  | ok w1 a =>
    constructor
    · intro h'; exact ⟨w1, a, rfl, h'⟩
    · rintro ⟨_, _, h1, h2⟩; cases h1; exact h2
  | err => simp
  | oof => simp

@[simp] theorem pure_eq_ok {a b : α} {w w' : W} :
    (Pure.pure a : M W α) w = .ok w' b ↔ w = w' ∧ a = b := by simp

theorem lift_eq_ok {x : Except Err α} {w w' : W} {a : α} :
    (lift x : M W α) w = .ok w' a ↔ w = w' ∧ x = .ok a := by
  cases x <;> simp [lift, pure, throw]

theorem bind_pure (x : M W α) : (x >>= fun a => Pure.pure a) = x := by
  funext w; rw [bind_run]; cases x w <;> rfl

theorem bind_assoc {γ : Type} (x : M W α) (f : α → M W β) (g : β → M W γ) :
    (x >>= f) >>= g = x >>= fun a => f a >>= g := by
  funext w; simp only [bind_run]; cases x w <;> rfl

@[ext] theorem ext {x y : M W α} (h : ∀ w, x w = y w) : x = y := funext h

end M

/-- A lens: a mutable Python object that is part of the world. -/
structure Lens (W S : Type) where
  get : W → S
  put : S → W → W
  get_put : ∀ s w, get (put s w) = s
  put_get : ∀ w, put (get w) w = w
  put_put : ∀ s s' w, put s (put s' w) = put s w

namespace Lens
/-- The whole world. -/
def id (W : Type) : Lens W W := ⟨fun w => w, fun s _ => s, fun _ _ => rfl, fun _ => rfl, fun _ _ _ => rfl⟩
/-- First component. -/
def fst (A B : Type) : Lens (A × B) A :=
  ⟨Prod.fst, fun s w => (s, w.2), fun _ _ => rfl, fun _ => rfl, fun _ _ _ => rfl⟩
/-- Second component. -/
def snd (A B : Type) : Lens (A × B) B :=
  ⟨Prod.snd, fun s w => (w.1, s), fun _ _ => rfl, fun _ => rfl, fun _ _ _ => rfl⟩
/-- Composition. -/
def comp {A B C : Type} (l : Lens A B) (m : Lens B C) : Lens A C where
  get a := m.get (l.get a)
  put c a := l.put (m.put c (l.get a)) a
  get_put c a := by simp [l.get_put, m.get_put]
  put_get a := by simp [l.put_get, m.put_get]
  put_put c c' a := by simp [l.put_put, l.get_put, m.put_put]
end Lens

end Verif
