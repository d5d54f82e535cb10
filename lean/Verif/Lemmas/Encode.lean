import Verif.Model.Primitives
set_option autoImplicit false
/-!
# Names as numbers

The kernel compares numbers much faster than lists of characters. For computations over the whole table of commands, names are coded as numbers.
-/
namespace PL

/-- The number of a name. -/
noncomputable def code (s : Str) : Nat := List.rec (motive := fun _ => Nat) 0 (fun c _ n => Nat.add (Nat.mul n 2097152) (Nat.succ c.toNat)) s

theorem toNat_lt (c : Char) : c.toNat + 1 < 2097152 := by
  have : c.toNat.isValidChar := c.valid
  rcases this with h | ⟨-, h⟩ <;> omega

theorem code_inj : ∀ {s t : Str}, code s = code t → s = t
  | [], [], _ => rfl
  | [], c :: t, h => by
    have : code (c :: t) = code t * 2097152 + (c.toNat + 1) := rfl
    rw [this] at h
    have : code [] = 0 := rfl
    omega
  | c :: s, [], h => by
    have : code (c :: s) = code s * 2097152 + (c.toNat + 1) := rfl
    rw [this] at h
    have : code [] = 0 := rfl
    omega
  | c :: s, d :: t, h => by
    have e1 : code (c :: s) = code s * 2097152 + (c.toNat + 1) := rfl
    have e2 : code (d :: t) = code t * 2097152 + (d.toNat + 1) := rfl
    rw [e1, e2] at h
    have h1 := toNat_lt c
    have h2 := toNat_lt d
    have h3 : code s = code t := by omega
    have h4 : c.toNat = d.toNat := by omega
    rw [code_inj h3, Char.toNat_inj.1 h4]

theorem beq_code (s t : Str) : Nat.beq (code s) (code t) = (s == t) := by
  cases h : s == t with
  | true => rw [beq_iff_eq.1 h]; exact Nat.beq_refl _
  | false =>
    cases h' : Nat.beq (code s) (code t) with
    | false => rfl
    | true => rw [code_inj (Nat.eq_of_beq_eq_true h')] at h; simp at h

/-- Look up a number. -/
noncomputable def lookupCode {α : Type} (n : Nat) (t : List (Str × α)) : Option α :=
  List.rec (motive := fun _ => Option α) none (fun p _ o => Bool.rec (motive := fun _ => Option α) o (some p.2) (Nat.beq n (code p.1))) t

theorem lookupCode_eq {α : Type} (name : Str) : ∀ t : List (Str × α), lookupCode (code name) t = t.lookup name
  | [] => rfl
  | (k, x) :: t => by
    rw [List.lookup_cons]
    show Bool.rec (motive := fun _ => Option α) (lookupCode (code name) t) (some x) (Nat.beq (code name) (code k)) = _
    rw [beq_code, lookupCode_eq name t]
    cases name == k <;> rfl

/-- Look a number up among names. -/
noncomputable def memCode (n : Nat) (t : List Str) : Bool :=
  List.rec (motive := fun _ => Bool) false (fun s _ b => Bool.rec (motive := fun _ => Bool) b true (Nat.beq n (code s))) t

theorem memCode_eq (name : Str) : ∀ t : List Str, memCode (code name) t = t.contains name
  | [] => rfl
  | s :: t => by
    rw [List.contains_cons, ← memCode_eq name t]
    show Bool.rec (motive := fun _ => Bool) (memCode (code name) t) true (Nat.beq (code name) (code s)) = _
    rw [beq_code]
    cases name == s <;> rfl

/-- `primOf` with numbers. -/
noncomputable def primCode (name : Str) : Prim :=
  match lookupCode (code name) primTable with
  | some p => p
  | none =>
    match controlSequenceDelimiterMap name with
    | some (c, ty) => .delim c ty
    | none => if (trimStart name).isEmpty then .nbsp else .unknown

theorem primCode_eq (name : Str) : primCode name = primOf name := by
  unfold primCode primOf
  rw [lookupCode_eq]
  cases primTable.lookup name <;> rfl

end PL
