import Verif.Lemmas.Monad
set_option autoImplicit false
/-! # Postconditions of computations -/
namespace PL
variable {σ α β : Type}

/-- Every outcome of running `m` from `s` satisfies the postcondition of its kind. -/
def Sat (Q : α → σ → Prop) (E : ErrorKind → σ → Prop) (Pn : Panic → Prop) : Res σ α → Prop
  | .ok a s => Q a s
  | .err e s => E e s
  | .panic p => Pn p

theorem Sat.bind {m : M σ α} {f : α → M σ β} {s : σ} {Q1 : α → σ → Prop} {Q : β → σ → Prop}
    {E : ErrorKind → σ → Prop} {Pn : Panic → Prop} (h : Sat Q1 E Pn (m s))
    (hf : ∀ a s', Q1 a s' → Sat Q E Pn (f a s')) : Sat Q E Pn ((m >>= f) s) := by
  rw [M.run_bind]
  cases hm : m s with
  | ok a s' => rw [hm] at h; exact hf a s' h
  | err e s' => rw [hm] at h; exact h
  | panic p => rw [hm] at h; exact h

theorem Sat.mono {Q Q' : α → σ → Prop} {E E' : ErrorKind → σ → Prop} {Pn Pn' : Panic → Prop} {o : Res σ α}
    (h : Sat Q E Pn o) (hQ : ∀ a s, Q a s → Q' a s) (hE : ∀ e s, E e s → E' e s) (hP : ∀ p, Pn p → Pn' p) :
    Sat Q' E' Pn' o := by
  cases o with
  | ok => exact hQ _ _ h
  | err => exact hE _ _ h
  | panic => exact hP _ h

theorem Sat.ite {c : Prop} [Decidable c] {m n : M σ α} {s : σ} {Q : α → σ → Prop}
    {E : ErrorKind → σ → Prop} {Pn : Panic → Prop} (h1 : c → Sat Q E Pn (m s)) (h2 : ¬ c → Sat Q E Pn (n s)) :
    Sat Q E Pn ((if c then m else n) s) := by
  by_cases h : c
  · rw [if_pos h]; exact h1 h
  · rw [if_neg h]; exact h2 h
end PL
