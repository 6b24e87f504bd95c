import Verif.Stream.Workers
/-!
# The serializing threads keep the invariant
-/
namespace Verif.Stream
open Verif.Wire (Bytes)

variable {z : Lz4} {K : Nat} {jobs : List Job} {orig : Nat → Bytes} {s : Sys}

/-- A serializer that changes only its own blocks, and new ones. -/
theorem Inv.own (h : Inv z K jobs orig s) {i : Nat} {f f' : Buf} {j : Job} {store' : List Block}
    {waiting' : List Nat} {orig' : Nat → Bytes}
    (hf : s.bufs[i]? = some f) (hj : jobs[i]? = some j)
    (hlen : s.store.length ≤ store'.length)
    (hsame : ∀ c, c < s.store.length → c ∉ f.blocks →
      store'.getD c Block.empty = s.block c ∧ orig' c = orig c ∧ (c ∈ waiting' ↔ c ∈ s.waiting))
    (hplain : ∀ c, (store'.getD c Block.empty).compressed = false → (store'.getD c Block.empty).bytes = orig' c)
    (hpacked : ∀ c, (store'.getD c Block.empty).compressed = true →
      (store'.getD c Block.empty).bytes = frame z (orig' c) ∧ (store'.getD c Block.empty).torn = false)
    (htorn : ∀ c, (store'.getD c Block.empty).torn = true → c ∈ s.working)
    (hsmall : ∀ c, (orig' c).length ≤ mb + max mb K)
    (hready : ∀ c, (s.block c).compressed = true → (store'.getD c Block.empty).compressed = true)
    (hnodup : waiting'.Nodup) (hdisj : ∀ c ∈ waiting', c ∉ s.working)
    (hrange : ∀ c ∈ waiting', c < store'.length)
    (hsleep : waiting' = s.waiting ∨ ∀ w : Nat, s.workers[w]? ≠ some .asleep)
    (hnew : ∀ b ∈ f'.blocks, b ∈ f.blocks ∨ s.store.length ≤ b)
    (hok : BufOk K orig' { s with store := store', waiting := waiting', bufs := s.bufs.set i f' } j f') :
    Inv z K jobs orig' { s with store := store', waiting := waiting', bufs := s.bufs.set i f' } where
  plain := hplain
  packed := hpacked
  torn := htorn
  small := hsmall
  held := h.held
  ready := fun w b hw => hready b (h.ready w b hw)
  uniq := h.uniq
  holder := h.holder
  nodupA := hnodup
  nodupB := h.nodupB
  disj := hdisj
  rangeA := hrange
  rangeB := fun b hb => Nat.lt_of_lt_of_le (h.rangeB b hb) hlen
  sleep := by
    intro w hw
    rcases hsleep with e | e
    · simp only [e]; exact h.sleep w hw
    · exact absurd hw (e w)
  count := by simp [h.count]
  bufs := by
    intro i' g j' hg hj'
    rcases get_set hg with ⟨rfl, rfl⟩ | ⟨hne, hg'⟩
    · rw [hj] at hj'
      obtain rfl := Option.some.inj hj'
      exact hok
    · have hgok := h.bufs i' g j' hg' hj'
      have hoff : ∀ b ∈ g.blocks, store'.getD b Block.empty = s.block b ∧ orig' b = orig b ∧ (b ∈ waiting' ↔ b ∈ s.waiting) := by
        intro b hb
        refine hsame b (hgok.range b hb) ?_
        intro hbf
        exact hne (h.apart i' i g f b hg' hf hb hbf)
      have hq : ∀ b ∈ g.blocks, Quiet s b → Quiet { s with store := store', waiting := waiting', bufs := s.bufs.set i f' } b := by
        intro b hb hq
        exact ⟨fun hm => hq.1 ((hoff b hb).2.2.mp hm), hq.2⟩
      have hbusy : ∀ b ∈ g.blocks, Busy s b → Busy { s with store := store', waiting := waiting', bufs := s.bufs.set i f' } b := by
        intro b hb hq
        rcases hq with hq | hq
        · exact Or.inl ((hoff b hb).2.2.mpr hq)
        · exact Or.inr hq
      refine BufOk.mono (s := s) (orig := orig) hlen (fun b hb => (hoff b hb).2.1) ?_ ?_ ?_ hq
        (fun b hb h => Or.inl (hbusy b hb h)) hgok
      · intro b hb ho
        refine ⟨?_, hq b hb ho.2⟩
        have := (hoff b hb).1
        simp only [Sys.block] at this ⊢; rw [this]; exact ho.1
      · intro b hb ho
        refine ⟨?_, hq b hb ho.2⟩
        have := (hoff b hb).1
        simp only [Sys.block] at this ⊢; rw [this]; exact ho.1
      · intro b hb ho
        rcases ho with ho | ho
        · exact Or.inl (hbusy b hb ho)
        · right
          have := (hoff b hb).1
          simp only [Sys.block] at this ⊢; rw [this]; exact ho
  apart := by
    intro a a' g g' b hg hg' hb hb'
    rcases get_set hg with ⟨rfl, rfl⟩ | ⟨hne, hg1⟩
    · rcases get_set hg' with ⟨rfl, rfl⟩ | ⟨hne', hg2⟩
      · rfl
      · rcases hnew b hb with hb1 | hb1
        · exact h.apart _ _ f g' b hf hg2 hb1 hb'
        · have hlt : a' < jobs.length := by
            rw [← h.count]
            rcases Nat.lt_or_ge a' s.bufs.length with h1 | h1
            · exact h1
            · rw [List.getElem?_eq_none h1] at hg2; cases hg2
          have := (h.bufs a' g' jobs[a'] hg2 (List.getElem?_eq_getElem hlt)).range b hb'
          omega
    · rcases get_set hg' with ⟨rfl, rfl⟩ | ⟨hne', hg2⟩
      · rcases hnew b hb' with hb1 | hb1
        · exact h.apart _ _ g f b hg1 hf hb hb1
        · have hlt : a < jobs.length := by
            rw [← h.count]
            rcases Nat.lt_or_ge a s.bufs.length with h1 | h1
            · exact h1
            · rw [List.getElem?_eq_none h1] at hg1; cases hg1
          have := (h.bufs a g jobs[a] hg1 (List.getElem?_eq_getElem hlt)).range b hb
          omega
      · exact h.apart _ _ g g' b hg1 hg2 hb hb'

/-- A step of a serializer that changes nothing but where that serializer is. -/
theorem Inv.move (h : Inv z K jobs orig s) {i : Nat} {f f' : Buf} {j : Job}
    (hf : s.bufs[i]? = some f) (hj : jobs[i]? = some j)
    (hnew : ∀ b ∈ f'.blocks, b ∈ f.blocks)
    (hok : BufOk K orig s j f') :
    Inv z K jobs orig { s with bufs := s.bufs.set i f' } := by
  refine h.own (store' := s.store) (waiting' := s.waiting) (orig' := orig) hf hj (Nat.le_refl _) (fun _ _ _ => ⟨rfl, rfl, Iff.rfl⟩)
    h.plain h.packed h.torn h.small (fun _ h => h) h.nodupA h.disj h.rangeA (Or.inl rfl) (fun b hb => Or.inl (hnew b hb)) ?_
  exact BufOk.mono (s := s) (orig := orig) (Nat.le_refl _) (fun _ _ => rfl) (fun _ _ h => h) (fun _ _ h => h)
    (fun _ _ h => h) (fun _ _ h => h) (fun _ _ h => Or.inl h) hok

theorem Inv.block_beyond (h : Inv z K jobs orig s) : ∀ b, s.store.length ≤ b → orig b = [] := by
  intro b hb
  have hblock : s.block b = Block.empty := by
    unfold Sys.block
    rw [List.getD_eq_getElem?_getD, List.getElem?_eq_none hb]; rfl
  have := h.plain b (by rw [hblock]; rfl)
  rw [← this, hblock]; rfl

/-- The job of a serializer. -/
theorem Inv.job (h : Inv z K jobs orig s) {i : Nat} {f : Buf} (hf : s.bufs[i]? = some f) :
    ∃ j, jobs[i]? = some j := by
  have hlt : i < jobs.length := by
    rw [← h.count]
    rcases Nat.lt_or_ge i s.bufs.length with h1 | h1
    · exact h1
    · rw [List.getElem?_eq_none h1] at hf; cases hf
  exact ⟨jobs[i], List.getElem?_eq_getElem hlt⟩

end Verif.Stream
