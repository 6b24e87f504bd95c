import Verif.Native.Context
/-
Whole functions.
-/
namespace Verif.Native

/-- How a call ends by the meaning of the function's body, and what happened. `none` if a loop takes
more than `fuel` rounds (or if the body ends without returning, which well formed ones do not). -/
def meaning (w : World) (fuel : Nat) (e : E) : Option (End × List Ev) :=
  match eval w fuel e (fun _ => false) [] with
  | some (.exc, _, tr) => some (.throws, tr)
  | some (.ret none, _, tr) => some (.returns, tr)
  | _ => none

theorem ok_fine {e : E} (h : e.Ok) : (conv [none] e fun _ => .no).fine :=
  wf_fine e [none] [] _ h.2.1 (fun nm h => by simp at h) h.1 (by
    rw [h.2.2.1]; exact fun t _ => ⟨rfl, by simp⟩) (by rw [h.2.2.1]; simp)

theorem ok_rel {e : E} (h : e.Ok) (w : World) (fuel : Nat) :
    Rel [] [none] e.falls (conv [none] e fun _ => .no).tags (conv [none] e fun _ => .no).edges
      (eval w fuel e (fun _ => false) []) (run w fuel (conv [none] e fun _ => .no).code (fun _ => false) []) := by
  have := conv_sim (w := w) (fuel := fuel) e [none] [] [] (fun _ => .no) (fun _ => false) (fun _ => false) []
    (by have := E.Wf.disc e h.2.1; rwa [h.2.2.1] at this) h.1 (fun t _ => ⟨rfl, by simp⟩) (by simp) (by simp)
    (ok_fine h) (by simp)
  unfold Conv.Sim at this
  rwa [conv_res] at this

/-- The jumps that leave the function. -/
theorem root_corr {o : Out} {sw : Int} (h : Corr [none] o sw) :
    (o = .exc ∧ sw < 0) ∨ (o = .ret none ∧ sw ≥ 0) := by
  match o, h with
  | .exc, h => exact .inl ⟨rfl, h⟩
  | .ret none, h =>
    have h : sw = ([none] : List (Option Name)).length + 1 := h
    simp only [List.length_singleton] at h
    exact .inr ⟨rfl, by omega⟩
  | .ret (some nm), ⟨k, h, _⟩ => simp [scopesTo] at h

theorem run_meaning {e : E} (h : e.Ok) (w : World) (fuel : Nat) :
    runFunction w fuel e = meaning w fuel e := by
  have hr := ok_rel h w fuel
  rw [runFunction, meaning]
  generalize eval w fuel e (fun _ => false) [] = r at hr
  generalize hq : run w fuel (conv [none] e fun _ => .no).code (fun _ => false) [] = q at hr
  cases hr with
  | none => rfl
  | norm hres _ => simp [h.2.2.2] at hres
  | jump hc _ he =>
    simp only [he.getD]
    rcases root_corr hc with ⟨rfl, hs⟩ | ⟨rfl, hs⟩
    · rw [if_neg (by omega)]
    · rw [if_pos hs]

theorem eval_ends {e : E} (h : e.Ok) (w : World) (fuel : Nat) {o A tr}
    (he : eval w fuel e (fun _ => false) [] = some (o, A, tr)) : o = .exc ∨ o = .ret none := by
  have hr := ok_rel h w fuel
  rw [he] at hr
  generalize run w fuel (conv [none] e fun _ => .no).code (fun _ => false) [] = q at hr
  cases hr with
  | norm hres _ => rw [h.2.2.2] at hres; cases hres
  | jump hc _ _ => exact (root_corr hc).imp (·.1) (·.1)

theorem meaning_eval {e : E} {w : World} {fuel : Nat} {x : End} {tr : List Ev}
    (h : meaning w fuel e = some (x, tr)) : ∃ o A, eval w fuel e (fun _ => false) [] = some (o, A, tr) := by
  rw [meaning] at h
  split at h
  · cases h; exact ⟨_, _, by assumption⟩
  · cases h; exact ⟨_, _, by assumption⟩
  · cases h

theorem meaning_never_twice {e : E} {w : World} {fuel : Nat} {x : End} {tr : List Ev}
    (h : meaning w fuel e = some (x, tr)) : NeverTwice tr := by
  obtain ⟨o, A, he⟩ := meaning_eval h
  have := eval_alive e (fun _ => false) [] (fun t => ⟨false, rfl, fun h => h⟩) o A tr he
  intro t ht
  obtain ⟨b, hb, _⟩ := this t
  rw [hb] at ht; cases ht

theorem meaning_exactly_once {e : E} (hok : e.Ok) {w : World} (hc : e.Calm w) {fuel : Nat} {x : End}
    {tr : List Ev} (h : meaning w fuel e = some (x, tr)) : ExactlyOnce tr := by
  obtain ⟨o, A, he⟩ := meaning_eval h
  have hx := eval_exact e [] (fun _ => false) [] hok.2.1 hc hok.1 (by rw [hok.2.2.1]; simp)
    (by simp) ⟨fun _ => rfl, fun _ _ => rfl⟩ o A tr he
  intro t
  rw [hx.1 t]
  by_cases ht : t ∈ e.decl
  · rw [hx.2 t ht]
  · rw [eval_keeps e [] (by have := E.Wf.disc e hok.2.1; rwa [hok.2.2.1] at this) t (by simp) ht _ _ _ _ _ he]

end Verif.Native
