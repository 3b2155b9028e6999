/-!
# Common vocabulary of the model

`Outcome` separates normal results from C++/Python exceptions and from undefined behaviour
(out-of-bounds access, use after free, signed overflow, ...).
-/

namespace Stempy

/-- Result of running a piece of C++ or Python: a value, an exception (with its message) or
undefined behaviour. -/
inductive Outcome (α : Type) where
  | ok (a : α)
  | throw (msg : String)
  | ub
  deriving Repr, DecidableEq

namespace Outcome

protected def bind {α β : Type} : Outcome α → (α → Outcome β) → Outcome β
  | ok a, f => f a
  | throw m, _ => throw m
  | ub, _ => ub

instance : Monad Outcome where
  pure := ok
  bind := Outcome.bind

@[simp] theorem pure_eq {α} (a : α) : (pure a : Outcome α) = ok a := rfl
@[simp] theorem ok_bind {α β} (a : α) (f : α → Outcome β) : (ok a >>= f) = f a := rfl
@[simp] theorem throw_bind {α β} (m : String) (f : α → Outcome β) :
    ((throw m : Outcome α) >>= f) = throw m := rfl
@[simp] theorem ub_bind {α β} (f : α → Outcome β) : ((ub : Outcome α) >>= f) = ub := rfl

instance : LawfulMonad Outcome := LawfulMonad.mk'
  (id_map := by intro α x; cases x <;> rfl)
  (pure_bind := by intros; rfl)
  (bind_assoc := by intro α β γ x f g; cases x <;> rfl)

/-- The run ended normally. -/
def isOk {α} : Outcome α → Bool
  | ok _ => true
  | _ => false

@[simp] theorem map_ok {α β} (f : α → β) (a : α) : f <$> (ok a) = ok (f a) := rfl

end Outcome

/-- Read of element `i` of a C++ array/vector of which `l` is the content: undefined behaviour when
out of bounds. -/
def readAt {α : Type} (l : List α) (i : Nat) : Outcome α :=
  match l[i]? with
  | some a => .ok a
  | none => .ub

/-- Write of element `i` of a C++ array/vector: undefined behaviour when out of bounds. -/
def writeAt {α : Type} (l : List α) (i : Nat) (a : α) : Outcome (List α) :=
  if i < l.length then .ok (l.set i a) else .ub

/-- Conversion of an unsigned 32 bit value to `int` (two's complement wrap). -/
def toInt32 (n : Nat) : Int := Int.bmod n (2 ^ 32)

/-- Result of a signed 32 bit operation: overflow is undefined behaviour. -/
def int32 (x : Int) : Outcome Int :=
  if -(2 ^ 31) ≤ x ∧ x < 2 ^ 31 then .ok x else .ub

theorem readAt_lt {α : Type} {l : List α} {i : Nat} (h : i < l.length) :
    readAt l i = .ok l[i] := by
  simp [readAt, h]

theorem readAt_eq_ok {α : Type} {l : List α} {i : Nat} {a : α} :
    readAt l i = .ok a ↔ l[i]? = some a := by
  unfold readAt; split <;> simp_all

theorem readAt_ub {α : Type} {l : List α} {i : Nat} : readAt l i = .ub ↔ l.length ≤ i := by
  unfold readAt
  split
  · rename_i h
    have := (List.getElem?_eq_some_iff.1 h).1
    simp; omega
  · simp_all

theorem writeAt_lt {α : Type} {l : List α} {i : Nat} {a : α} (h : i < l.length) :
    writeAt l i a = .ok (l.set i a) := by
  simp [writeAt, h]

theorem toInt32_of_lt {n : Nat} (h : n < 2 ^ 31) : toInt32 n = n := by
  unfold toInt32
  rw [Int.bmod_def]
  omega

theorem int32_ok {x : Int} (h1 : -(2 ^ 31) ≤ x) (h2 : x < 2 ^ 31) : int32 x = .ok x := by
  simp only [int32]; rw [if_pos ⟨h1, h2⟩]

/-- A monadic map whose body always succeeds is a plain map. -/
theorem mapM_ok {α β : Type} (l : List α) (f : α → Outcome β) (g : α → β)
    (h : ∀ a ∈ l, f a = .ok (g a)) : l.mapM f = .ok (l.map g) := by
  induction l with
  | nil => rfl
  | cons a l ih =>
    rw [List.mapM_cons, h a (by simp), Outcome.ok_bind, ih (fun b hb => h b (by simp [hb]))]
    rfl

/-- The same for the image of a list. -/
theorem mapM_map_ok {α β γ : Type} (l : List α) (e : α → β) (f : β → Outcome γ) (g : α → γ)
    (h : ∀ a ∈ l, f (e a) = .ok (g a)) : (l.map e).mapM f = .ok (l.map g) := by
  induction l with
  | nil => rfl
  | cons a l ih =>
    rw [List.map_cons, List.mapM_cons, h a (by simp), Outcome.ok_bind,
      ih (fun b hb => h b (by simp [hb]))]
    rfl

/-- A monadic fold whose body always succeeds on states satisfying an invariant is a plain fold. -/
theorem foldlM_ok {α σ : Type} (l : List α) (f : σ → α → Outcome σ) (g : σ → α → σ)
    (I : σ → Prop) (s : σ) (hs : I s)
    (h : ∀ s, I s → ∀ a ∈ l, f s a = .ok (g s a) ∧ I (g s a)) :
    l.foldlM f s = .ok (l.foldl g s) := by
  induction l generalizing s with
  | nil => rfl
  | cons a l ih =>
    rw [List.foldlM_cons, (h s hs a (by simp)).1, Outcome.ok_bind]
    exact ih _ (h s hs a (by simp)).2 (fun s hs b hb => h s hs b (by simp [hb]))

/-- The run does not end with an exception. -/
def NoThrow {α : Type} (x : Outcome α) : Prop := ∀ m, x ≠ .throw m

namespace NoThrow

theorem ok {α : Type} (a : α) : NoThrow (.ok a) := by intro m; simp
theorem pure {α : Type} (a : α) : NoThrow (pure a) := by intro m; simp
theorem ub {α : Type} : NoThrow (.ub : Outcome α) := by intro m; simp

theorem bind {α β : Type} {x : Outcome α} {f : α → Outcome β} (hx : NoThrow x)
    (hf : ∀ a, NoThrow (f a)) : NoThrow (x >>= f) := by
  intro m
  cases x with
  | ok a => exact hf a m
  | throw m2 => exact absurd rfl (hx m2)
  | ub => simp

theorem mapM {α β : Type} (l : List α) (f : α → Outcome β) (hf : ∀ a, NoThrow (f a)) :
    NoThrow (l.mapM f) := by
  induction l with
  | nil => exact ok _
  | cons a l ih =>
    rw [List.mapM_cons]
    exact bind (hf a) fun _ => bind ih fun _ => pure _

theorem foldlM {α σ : Type} (l : List α) (f : σ → α → Outcome σ) (hf : ∀ s a, NoThrow (f s a))
    (s : σ) : NoThrow (l.foldlM f s) := by
  induction l generalizing s with
  | nil => exact ok _
  | cons a l ih =>
    rw [List.foldlM_cons]
    exact bind (hf s a) fun s => ih s

theorem readAt {α : Type} (l : List α) (i : Nat) : NoThrow (readAt l i) := by
  intro m; unfold Stempy.readAt; split <;> simp

theorem writeAt {α : Type} (l : List α) (i : Nat) (a : α) : NoThrow (writeAt l i a) := by
  intro m; unfold Stempy.writeAt; split <;> simp

theorem int32 (x : Int) : NoThrow (int32 x) := by
  intro m; unfold Stempy.int32; split <;> simp

end NoThrow

end Stempy
