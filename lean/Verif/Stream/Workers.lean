import Verif.Stream.Inv
/-!
# The compression threads keep the invariant
-/
namespace Verif.Stream
open Verif.Wire (Bytes)

theorem get_set {α : Type} {l : List α} {w v : Nat} {x y : α} (h : (l.set w x)[v]? = some y) :
    (v = w ∧ y = x) ∨ (v ≠ w ∧ l[v]? = some y) := by
  rw [List.getElem?_set] at h
  by_cases hv : w = v
  · subst hv
    rw [if_pos rfl] at h
    left
    by_cases hl : w < l.length
    · rw [if_pos hl] at h; exact ⟨rfl, (Option.some.inj h).symm⟩
    · rw [if_neg hl] at h; exact absurd h (by simp)
  · rw [if_neg hv] at h
    exact Or.inr ⟨fun e => hv e.symm, h⟩

theorem set_get {α : Type} {l : List α} {w : Nat} {x y : α} (h : l[w]? = some y) : (l.set w x)[w]? = some x := by
  have : w < l.length := by
    rcases Nat.lt_or_ge w l.length with h1 | h1
    · exact h1
    · rw [List.getElem?_eq_none h1] at h; exact absurd h (by simp)
  rw [List.getElem?_set]; simp [this]

theorem set_get_ne {α : Type} {l : List α} {w v : Nat} {x : α} (h : v ≠ w) : (l.set w x)[v]? = l[v]? := by
  rw [List.getElem?_set, if_neg (fun e => h e.symm)]

variable {z : Lz4} {K : Nat} {jobs : List Job} {orig : Nat → Bytes} {s : Sys}

/-- Changing one worker for another that holds the same block (or neither holds one), together with a change
of the store that the block allows. -/
theorem Inv.swap (h : Inv z K jobs orig s) {w : Nat} {x y : Worker} {store' : List Block}
    (hw : s.workers[w]? = some x) (hxy : y.block? = x.block?)
    (hlen : store'.length = s.store.length)
    (hsame : ∀ c, c ∉ s.working → store'.getD c Block.empty = s.block c)
    (hcomp : ∀ c, (s.block c).compressed = true → store'.getD c Block.empty = s.block c)
    (hplain : ∀ c, (store'.getD c Block.empty).compressed = false → (store'.getD c Block.empty).bytes = orig c)
    (hpacked : ∀ c, (store'.getD c Block.empty).compressed = true →
      (store'.getD c Block.empty).bytes = frame z (orig c) ∧ (store'.getD c Block.empty).torn = false)
    (hready : ∀ b, y = .ready b → (store'.getD b Block.empty).compressed = true)
    (hsleep : y = .asleep → s.waiting = []) :
    Inv z K jobs orig { s with store := store', workers := s.workers.set w y } where
  plain := hplain
  packed := hpacked
  torn := by
    intro b hb
    by_cases hm : b ∈ s.working
    · exact hm
    · have := hsame b hm
      simp only [Sys.block] at hb this
      rw [this] at hb
      exact h.torn b hb
  small := h.small
  held := by
    intro v a b hv ha
    rcases get_set hv with ⟨rfl, rfl⟩ | ⟨_, hv'⟩
    · rw [hxy] at ha; exact h.held _ x b hw ha
    · exact h.held v a b hv' ha
  ready := by
    intro v b hv
    rcases get_set hv with ⟨rfl, e⟩ | ⟨_, hv'⟩
    · exact hready b e.symm
    · have := h.ready v b hv'
      have e := hcomp b this
      simp only [Sys.block] at e this ⊢
      rw [e]; exact this
  uniq := by
    intro v v' a a' b hv hv' ha ha'
    rcases get_set hv with ⟨rfl, rfl⟩ | ⟨_, hv1⟩
    · rcases get_set hv' with ⟨rfl, rfl⟩ | ⟨_, hv2⟩
      · rfl
      · rw [hxy] at ha
        exact h.uniq _ _ x a' b hw hv2 ha ha'
    · rcases get_set hv' with ⟨rfl, rfl⟩ | ⟨_, hv2⟩
      · rw [hxy] at ha'
        exact h.uniq _ _ a x b hv1 hw ha ha'
      · exact h.uniq _ _ a a' b hv1 hv2 ha ha'
  holder := by
    intro b hb
    obtain ⟨v, a, hv, ha⟩ := h.holder b hb
    by_cases e : v = w
    · subst e
      rw [hw] at hv
      have : x = a := Option.some.inj hv
      subst this
      exact ⟨v, y, set_get hw, by rw [hxy]; exact ha⟩
    · exact ⟨v, a, by simp only; rw [set_get_ne e]; exact hv, ha⟩
  nodupA := h.nodupA
  nodupB := h.nodupB
  disj := h.disj
  rangeA := by simp only [hlen]; exact h.rangeA
  rangeB := by simp only [hlen]; exact h.rangeB
  sleep := by
    intro v hv
    rcases get_set hv with ⟨rfl, e⟩ | ⟨_, hv'⟩
    · exact hsleep e.symm
    · exact h.sleep v hv'
  count := h.count
  bufs := by
    intro i f j hf hj
    refine BufOk.mono (s := s) (orig := orig) (by simp only [hlen]; exact Nat.le_refl _) (fun _ _ => rfl) ?_ ?_ ?_ (fun _ _ h => h)
      (fun _ _ h => Or.inl h) (h.bufs i f j hf hj)
    · intro b _ ho
      refine ⟨?_, ho.2⟩
      simp only [Sys.block]
      rw [hsame b ho.2.2]; exact ho.1
    · intro b _ hc
      refine ⟨?_, hc.2⟩
      simp only [Sys.block]
      rw [hcomp b hc.1]; exact hc.1
    · intro b _ hs
      rcases hs with hs | hs
      · exact Or.inl hs
      · right
        simp only [Sys.block]
        rw [hcomp b hs]; exact hs
  apart := h.apart

/-- A thread with nothing to do goes to sleep. -/
theorem Inv.sleepStep (h : Inv z K jobs orig s) {w : Nat} (hw : s.workers[w]? = some .idle) (he : s.waiting = []) :
    Inv z K jobs orig { s with workers := s.workers.set w .asleep } :=
  h.swap (store' := s.store) hw rfl rfl (fun _ _ => rfl) (fun _ _ => rfl) h.plain h.packed
    (fun _ e => by cases e) (fun _ => he)

/-- A thread takes a block from those waiting. -/
theorem Inv.take (h : Inv z K jobs orig s) {w b : Nat} (hw : s.workers[w]? = some .idle) (hb : b ∈ s.waiting) :
    Inv z K jobs orig { s with
      working := b :: s.working
      waiting := s.waiting.erase b
      workers := s.workers.set w (.has b) } where
  plain := h.plain
  packed := h.packed
  torn := fun c hc => List.mem_cons_of_mem _ (h.torn c hc)
  small := h.small
  held := by
    intro v a c hv ha
    rcases get_set hv with ⟨rfl, rfl⟩ | ⟨_, hv'⟩
    · simp only [Worker.block?, Option.some.injEq] at ha; subst ha; simp
    · exact List.mem_cons_of_mem _ (h.held v a c hv' ha)
  ready := by
    intro v c hv
    rcases get_set hv with ⟨rfl, e⟩ | ⟨_, hv'⟩
    · cases e
    · exact h.ready v c hv'
  uniq := by
    intro v v' a a' c hv hv' ha ha'
    have hno : ∀ (u : Nat) (q : Worker), s.workers[u]? = some q → q.block? ≠ some b := by
      intro u q hu hq
      exact h.disj b hb (h.held u q b hu hq)
    rcases get_set hv with ⟨rfl, rfl⟩ | ⟨_, hv1⟩
    · simp only [Worker.block?, Option.some.injEq] at ha; subst ha
      rcases get_set hv' with ⟨rfl, rfl⟩ | ⟨_, hv2⟩
      · rfl
      · exact absurd ha' (hno _ _ hv2)
    · rcases get_set hv' with ⟨rfl, rfl⟩ | ⟨_, hv2⟩
      · simp only [Worker.block?, Option.some.injEq] at ha'; subst ha'
        exact absurd ha (hno _ _ hv1)
      · exact h.uniq _ _ a a' c hv1 hv2 ha ha'
  holder := by
    intro c hc
    rcases List.mem_cons.mp hc with rfl | hc
    · exact ⟨w, _, set_get hw, rfl⟩
    · obtain ⟨v, a, hv, ha⟩ := h.holder c hc
      by_cases e : v = w
      · subst e
        rw [hw] at hv
        have : Worker.idle = a := Option.some.inj hv
        subst this
        simp [Worker.block?] at ha
      · exact ⟨v, a, by simp only; rw [set_get_ne e]; exact hv, ha⟩
  nodupA := h.nodupA.erase b
  nodupB := List.nodup_cons.mpr ⟨h.disj b hb, h.nodupB⟩
  disj := by
    intro c hc hm
    have hc' := List.mem_of_mem_erase hc
    rcases List.mem_cons.mp hm with rfl | hm
    · exact (List.Nodup.not_mem_erase h.nodupA) hc
    · exact h.disj c hc' hm
  rangeA := fun c hc => h.rangeA c (List.mem_of_mem_erase hc)
  rangeB := by
    intro c hc
    rcases List.mem_cons.mp hc with rfl | hc
    · exact h.rangeA _ hb
    · exact h.rangeB c hc
  sleep := by
    intro v hv
    rcases get_set hv with ⟨rfl, e⟩ | ⟨_, hv'⟩
    · cases e
    · have := h.sleep v hv'
      rw [this] at hb; cases hb
  count := h.count
  bufs := by
    intro i f j hf hj
    have hquiet : ∀ c, Quiet s c → Quiet { s with working := b :: s.working, waiting := s.waiting.erase b, workers := s.workers.set w (.has b) } c := by
      intro c hc
      refine ⟨fun hm => hc.1 (List.mem_of_mem_erase hm), fun hm => ?_⟩
      rcases List.mem_cons.mp hm with rfl | hm
      · exact hc.1 hb
      · exact hc.2 hm
    have hbusy : ∀ c, Busy s c → Busy { s with working := b :: s.working, waiting := s.waiting.erase b, workers := s.workers.set w (.has b) } c := by
      intro c hc
      by_cases e : c = b
      · right; simp [e]
      · rcases hc with hc | hc
        · exact Or.inl ((List.mem_erase_of_ne e).mpr hc)
        · exact Or.inr (List.mem_cons_of_mem _ hc)
    refine BufOk.mono (s := s) (orig := orig) (Nat.le_refl _) (fun _ _ => rfl) ?_ ?_ ?_ (fun c _ h => hquiet c h)
      (fun c _ h => Or.inl (hbusy c h)) (h.bufs i f j hf hj)
    · exact fun c _ ho => ⟨ho.1, hquiet c ho.2⟩
    · exact fun c _ ho => ⟨ho.1, hquiet c ho.2⟩
    · intro c _ hs
      rcases hs with hs | hs
      · exact Or.inl (hbusy c hs)
      · exact Or.inr hs
  apart := h.apart

/-- A thread that finds its block already compressed has nothing to do. -/
theorem Inv.skip (h : Inv z K jobs orig s) {w b : Nat} (hw : s.workers[w]? = some (.has b))
    (hc : (s.block b).compressed = true) :
    Inv z K jobs orig { s with workers := s.workers.set w (.ready b) } :=
  h.swap (store' := s.store) hw rfl rfl (fun _ _ => rfl) (fun _ _ => rfl) h.plain h.packed
    (fun _ e => by cases e; exact hc) (fun e => by cases e)

/-- A thread begins to compress. -/
theorem Inv.tear (h : Inv z K jobs orig s) {w b : Nat} (hw : s.workers[w]? = some (.has b))
    (hc : (s.block b).compressed ≠ true) :
    Inv z K jobs orig { s with
      store := s.store.set b { s.block b with torn := true }
      workers := s.workers.set w (.torn b) } := by
  have hm := h.held w _ b hw rfl
  have hr := h.rangeB b hm
  have hcf : (s.block b).compressed = false := by simpa using hc
  refine h.swap hw rfl (by simp) ?_ ?_ ?_ ?_ (fun _ e => by cases e) (fun e => by cases e)
  · intro c hcm
    rw [getD_set _ _ _ _ hr, if_neg (by rintro rfl; exact hcm hm)]; rfl
  · intro c hcc
    rw [getD_set _ _ _ _ hr, if_neg (fun e => by subst e; simp [hcf] at hcc)]; rfl
  · intro c
    rw [getD_set _ _ _ _ hr]
    by_cases e : c = b
    · subst e; simp only [if_true]; exact h.plain c
    · simp only [e, if_false]; exact h.plain c
  · intro c
    rw [getD_set _ _ _ _ hr]
    by_cases e : c = b
    · subst e; simp only [if_true]; intro hcc; simp [hcf] at hcc
    · simp only [e, if_false]; exact h.packed c

/-- A thread finishes compressing. -/
theorem Inv.pack (h : Inv z K jobs orig s) {w b : Nat} (hw : s.workers[w]? = some (.torn b)) :
    Inv z K jobs orig { s with
      store := s.store.set b ((s.block b).compress z)
      workers := s.workers.set w (.ready b) } := by
  have hm := h.held w _ b hw rfl
  have hr := h.rangeB b hm
  have hcomp : ((s.block b).compress z).compressed = true := by
    unfold Block.compress
    by_cases hc : (s.block b).compressed = true
    · rw [if_pos hc]; exact hc
    · rw [if_neg hc]
  refine h.swap hw rfl (by simp) ?_ ?_ ?_ ?_ ?_ (fun e => by cases e)
  · intro c hcm
    rw [getD_set _ _ _ _ hr, if_neg (by rintro rfl; exact hcm hm)]; rfl
  · intro c hcc
    rw [getD_set _ _ _ _ hr]
    by_cases e : c = b
    · subst e; simp only [if_true]; unfold Block.compress; rw [if_pos hcc]
    · simp only [e, if_false]; rfl
  · intro c
    rw [getD_set _ _ _ _ hr]
    by_cases e : c = b
    · subst e; simp only [if_true]; intro hcc; rw [hcomp] at hcc; cases hcc
    · simp only [e, if_false]; exact h.plain c
  · intro c
    rw [getD_set _ _ _ _ hr]
    by_cases e : c = b
    · subst e; simp only [if_true]; intro _
      unfold Block.compress
      by_cases hc : (s.block c).compressed = true
      · rw [if_pos hc]; exact h.packed c hc
      · rw [if_neg hc]
        refine ⟨?_, rfl⟩
        simp only [h.plain c (by simpa using hc)]
    · simp only [e, if_false]; exact h.packed c
  · intro c e
    cases e
    rw [getD_set _ _ _ _ hr, if_pos rfl]; exact hcomp

/-- A thread is done with its block, when nobody sleeps. -/
theorem Inv.erase (h : Inv z K jobs orig s) {w b : Nat} (hw : s.workers[w]? = some (.ready b))
    (haw : ∀ (i : Nat) (f : Buf) (l : List Nat), s.bufs[i]? = some f → f.phase ≠ .asleep l) :
    Inv z K jobs orig { s with
      working := s.working.erase b
      workers := s.workers.set w .idle } := by
  have hm := h.held w _ b hw rfl
  have hcb := h.ready w b hw
  have hnot : ∀ (v : Nat) (a : Worker), v ≠ w → s.workers[v]? = some a → a.block? ≠ some b := by
    intro v a hv ha hab
    exact hv (h.uniq v w a _ b ha hw hab rfl)
  have hquiet : ∀ c, Quiet s c → Quiet { s with working := s.working.erase b, workers := s.workers.set w .idle } c := by
    intro c hc
    exact ⟨hc.1, fun hm => hc.2 (List.mem_of_mem_erase hm)⟩
  have hbusy : ∀ c, c ≠ b → Busy s c → Busy { s with working := s.working.erase b, workers := s.workers.set w .idle } c := by
    intro c e hc
    rcases hc with hc | hc
    · exact Or.inl hc
    · exact Or.inr ((List.mem_erase_of_ne e).mpr hc)
  exact {
    plain := h.plain
    packed := h.packed
    torn := by
      intro c hc
      have hcm := h.torn c hc
      have hne : c ≠ b := by
        intro e; subst e
        have h2 := (h.packed c hcb).2
        simp only [Sys.block] at hc h2
        rw [h2] at hc; cases hc
      exact (List.mem_erase_of_ne hne).mpr hcm
    small := h.small
    held := by
      intro v a c hv ha
      rcases get_set hv with ⟨rfl, rfl⟩ | ⟨hne, hv'⟩
      · simp [Worker.block?] at ha
      · have hcm := h.held v a c hv' ha
        have : c ≠ b := by intro e; subst e; exact hnot v a hne hv' ha
        exact (List.mem_erase_of_ne this).mpr hcm
    ready := by
      intro v c hv
      rcases get_set hv with ⟨rfl, e⟩ | ⟨_, hv'⟩
      · cases e
      · exact h.ready v c hv'
    uniq := by
      intro v v' a a' c hv hv' ha ha'
      rcases get_set hv with ⟨rfl, rfl⟩ | ⟨_, hv1⟩
      · simp [Worker.block?] at ha
      · rcases get_set hv' with ⟨rfl, rfl⟩ | ⟨_, hv2⟩
        · simp [Worker.block?] at ha'
        · exact h.uniq _ _ a a' c hv1 hv2 ha ha'
    holder := by
      intro c hc
      have hcm := List.mem_of_mem_erase hc
      obtain ⟨v, a, hv, ha⟩ := h.holder c hcm
      by_cases e : v = w
      · subst e
        rw [hw] at hv
        have : Worker.ready b = a := Option.some.inj hv
        subst this
        simp only [Worker.block?, Option.some.injEq] at ha
        subst ha
        exact absurd hc (List.Nodup.not_mem_erase h.nodupB)
      · exact ⟨v, a, by simp only; rw [set_get_ne e]; exact hv, ha⟩
    nodupA := h.nodupA
    nodupB := h.nodupB.erase b
    disj := fun c hc hm => h.disj c hc (List.mem_of_mem_erase hm)
    rangeA := h.rangeA
    rangeB := fun c hc => h.rangeB c (List.mem_of_mem_erase hc)
    sleep := by
      intro v hv
      rcases get_set hv with ⟨rfl, e⟩ | ⟨_, hv'⟩
      · cases e
      · exact h.sleep v hv'
    count := h.count
    bufs := by
      intro i f j hf hj
      refine BufOk.mono (s := s) (orig := orig) (Nat.le_refl _) (fun _ _ => rfl) ?_ ?_ ?_ (fun c _ h => hquiet c h)
        (fun c _ h => Or.inr (haw i f · hf)) (h.bufs i f j hf hj)
      · exact fun c _ ho => ⟨ho.1, hquiet c ho.2⟩
      · exact fun c _ ho => ⟨ho.1, hquiet c ho.2⟩
      · intro c _ hs
        by_cases e : c = b
        · right; subst e; exact hcb
        · rcases hs with hs | hs
          · exact Or.inl (hbusy c e hs)
          · exact Or.inr hs
    apart := h.apart }

theorem wake_set (l : List Worker) (w : Nat) : (l.set w .idle).map Worker.wake = (l.map Worker.wake).set w .idle := by
  rw [List.map_set]; rfl

/-- Whatever a compression thread does, the invariant stays. -/
theorem Inv.worker (h : Inv z K jobs orig s) {w pick : Nat} {s' : Sys} (hs : stepWorker z s w pick = some s') :
    Inv z K jobs orig s' := by
  unfold stepWorker at hs
  cases hw : s.workers[w]? with
  | none => simp [hw] at hs
  | some x =>
    cases x with
    | idle =>
      simp only [hw] at hs
      by_cases he : s.waiting = []
      · rw [if_pos he] at hs
        obtain rfl := Option.some.inj hs
        exact h.sleepStep hw he
      · rw [if_neg he] at hs
        by_cases hp : pick ∈ s.waiting
        · rw [if_pos hp] at hs
          obtain rfl := Option.some.inj hs
          exact h.take hw hp
        · rw [if_neg hp] at hs; cases hs
    | asleep => simp [hw] at hs
    | has b =>
      simp only [hw] at hs
      by_cases hc : (s.block b).compressed = true
      · rw [if_pos hc] at hs
        obtain rfl := Option.some.inj hs
        exact h.skip hw hc
      · rw [if_neg hc] at hs
        obtain rfl := Option.some.inj hs
        exact h.tear hw hc
    | torn b =>
      simp only [hw] at hs
      obtain rfl := Option.some.inj hs
      exact h.pack hw
    | ready b =>
      simp only [hw] at hs
      obtain rfl := Option.some.inj hs
      have h1 := h.notify
      have hw1 : s.notify.workers[w]? = some (.ready b) := by
        simp [Sys.notify, hw, Worker.wake]
      have h2 := h1.erase hw1 (notify_awake s).2
      simp only [Sys.notify] at h2 ⊢
      rw [wake_set]
      exact h2

end Verif.Stream
