import Verif.Model.Event
set_option autoImplicit false
/-! # Running computations -/
namespace PL.M
variable {σ α β γ : Type}

@[simp] theorem run_pure (a : α) (s : σ) : (Pure.pure a : M σ α) s = .ok a s := rfl
@[simp] theorem run_get (s : σ) : (M.get : M σ σ) s = .ok s s := rfl
@[simp] theorem run_set (t s : σ) : (M.set t : M σ PUnit) s = .ok ⟨⟩ t := rfl
@[simp] theorem run_modify (f : σ → σ) (s : σ) : (M.modify f : M σ PUnit) s = .ok ⟨⟩ (f s) := rfl
@[simp] theorem run_fail (e : ErrorKind) (s : σ) : (M.fail e : M σ α) s = .err e s := rfl
@[simp] theorem run_boom (p : Panic) (s : σ) : (M.boom p : M σ α) s = .panic p := rfl

theorem run_bind (m : M σ α) (f : α → M σ β) (s : σ) : (m >>= f) s =
    match m s with
    | .ok a s' => f a s'
    | .err e s' => .err e s'
    | .panic p => .panic p := rfl

theorem bind_ok {m : M σ α} {f : α → M σ β} {s s' : σ} {a : α} (h : m s = .ok a s') : (m >>= f) s = f a s' := by
  rw [run_bind, h]
theorem bind_err {m : M σ α} {f : α → M σ β} {s s' : σ} {e : ErrorKind} (h : m s = .err e s') :
    (m >>= f) s = .err e s' := by
  rw [run_bind, h]
theorem bind_panic {m : M σ α} {f : α → M σ β} {s : σ} {p : Panic} (h : m s = .panic p) :
    (m >>= f) s = .panic p := by
  rw [run_bind, h]

@[simp] theorem pure_bind' (a : α) (f : α → M σ β) (s : σ) : ((Pure.pure a : M σ α) >>= f) s = f a s := rfl
@[simp] theorem get_bind (f : σ → M σ β) (s : σ) : ((M.get : M σ σ) >>= f) s = f s s := rfl
@[simp] theorem set_bind (t s : σ) (f : PUnit → M σ β) : ((M.set t : M σ PUnit) >>= f) s = f ⟨⟩ t := rfl
@[simp] theorem modify_bind (g : σ → σ) (s : σ) (f : PUnit → M σ β) : ((M.modify g : M σ PUnit) >>= f) s = f ⟨⟩ (g s) := rfl
@[simp] theorem fail_bind (e : ErrorKind) (s : σ) (f : α → M σ β) : ((M.fail e : M σ α) >>= f) s = .err e s := rfl
@[simp] theorem boom_bind (p : Panic) (s : σ) (f : α → M σ β) : ((M.boom p : M σ α) >>= f) s = .panic p := rfl

theorem bind_assoc' (m : M σ α) (f : α → M σ β) (g : β → M σ γ) (s : σ) :
    ((m >>= f) >>= g) s = (m >>= fun a => f a >>= g) s := by
  rw [run_bind, run_bind, run_bind]
  cases m s <;> rfl

/-- Inversion of a sequence that succeeds. -/
theorem bind_eq_ok {m : M σ α} {f : α → M σ β} {s t : σ} {b : β} (h : (m >>= f) s = .ok b t) :
    ∃ a s', m s = .ok a s' ∧ f a s' = .ok b t := by
  rw [run_bind] at h
  cases hm : m s with
  | ok a s' => rw [hm] at h; exact ⟨a, s', rfl, h⟩
  | err e s' => rw [hm] at h; cases h
  | panic p => rw [hm] at h; cases h

theorem bind_eq_err {m : M σ α} {f : α → M σ β} {s t : σ} {e : ErrorKind} (h : (m >>= f) s = .err e t) :
    m s = .err e t ∨ ∃ a s', m s = .ok a s' ∧ f a s' = .err e t := by
  rw [run_bind] at h
  cases hm : m s with
  | ok a s' => rw [hm] at h; exact .inr ⟨a, s', rfl, h⟩
  | err e s' => rw [hm] at h; cases h; exact .inl rfl
  | panic p => rw [hm] at h; cases h

theorem bind_eq_panic {m : M σ α} {f : α → M σ β} {s : σ} {p : Panic} (h : (m >>= f) s = .panic p) :
    m s = .panic p ∨ ∃ a s', m s = .ok a s' ∧ f a s' = .panic p := by
  rw [run_bind] at h
  cases hm : m s with
  | ok a s' => rw [hm] at h; exact .inr ⟨a, s', rfl, h⟩
  | err e s' => rw [hm] at h; cases h
  | panic p => rw [hm] at h; cases h; exact .inl rfl

end PL.M
