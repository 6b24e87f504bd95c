import Verif.Stream.Serial
/-!
# Every action keeps the invariant
-/
namespace Verif.Stream
open Verif.Wire (Bytes)

variable {z : Lz4} {K : Nat} {jobs : List Job} {orig : Nat → Bytes} {s : Sys}

/-- `orig` after `p` was appended to block `t`. -/
def grow (orig : Nat → Bytes) (t : Nat) (p : Bytes) : Nat → Bytes := fun c => if c = t then orig c ++ p else orig c

theorem grow_flatMap (orig : Nat → Bytes) (t : Nat) (p : Bytes) (pre : List Nat) (h : (pre ++ [t]).Nodup) :
    (pre ++ [t]).flatMap (grow orig t p) = (pre ++ [t]).flatMap orig ++ p := by
  have h1 : pre.flatMap (grow orig t p) = pre.flatMap orig := by
    apply flatMap_congr'
    intro b hb
    have : b ≠ t := by
      intro e; subst e
      rw [List.nodup_append] at h
      exact h.2.2 b hb b (by simp) rfl
    simp [grow, this]
  simp [List.flatMap_append, h1, grow]

/-- A write that fits in the top block. -/
theorem Inv.putSame (h : Inv z K jobs orig s) {i : Nat} {f : Buf} {p : Bytes} {todo : List Bytes}
    (hf : s.bufs[i]? = some f) (hp : f.phase = .writing (p :: todo)) (ho : (s.block f.top).oversized = false) :
    Inv z K jobs (grow orig f.top p) { s with
      store := s.store.set f.top ((s.block f.top).append p)
      bufs := s.bufs.set i { f with phase := .writing todo } } := by
  obtain ⟨j, hj⟩ := h.job hf
  have hok := h.bufs i f j hf hj
  have htop := hok.range _ hok.top_mem
  have hph := hok.phase
  unfold PhaseOk at hph
  simp only [hp] at hph
  obtain ⟨⟨hcf, hq⟩, hrest⟩ := hph
  have hbytes := h.plain _ hcf
  have hlen : (orig f.top).length ≤ mb := by
    rw [← hbytes]; simpa [Block.oversized] using ho
  have hpl : p.length ≤ max mb K := hok.short p (by rw [hp]; simp [Phase.todo])
  have hget : ∀ c, (s.store.set f.top ((s.block f.top).append p)).getD c Block.empty
      = if c = f.top then (s.block f.top).append p else s.block c := fun c => getD_set _ _ _ _ htop
  refine h.own (store' := s.store.set f.top ((s.block f.top).append p)) (waiting' := s.waiting) hf hj (by simp) ?_ ?_ ?_ ?_ ?_ ?_ h.nodupA h.disj (by simpa using h.rangeA) (Or.inl rfl)
    (fun b hb => Or.inl hb) ?_
  · intro c _ hc
    have : c ≠ f.top := by rintro rfl; exact hc hok.top_mem
    refine ⟨?_, by simp [grow, this], Iff.rfl⟩
    rw [hget]; simp [this]
  · intro c
    rw [hget]
    by_cases e : c = f.top
    · simp only [e, if_true, grow, Block.append]; intro _; rw [hbytes]
    · simp only [e, if_false, grow]; exact h.plain c
  · intro c
    rw [hget]
    by_cases e : c = f.top
    · simp only [e, if_true, Block.append, hcf]; intro hc; cases hc
    · simp only [e, if_false, grow]; exact h.packed c
  · intro c
    rw [hget]
    by_cases e : c = f.top
    · simp only [e, if_true, Block.append]; exact h.torn _
    · simp only [e, if_false]; exact h.torn c
  · intro c
    unfold grow
    by_cases e : c = f.top
    · simp only [e, if_true, List.length_append]; omega
    · simp only [e, if_false]; exact h.small c
  · intro c hc
    rw [hget]
    by_cases e : c = f.top
    · subst e; rw [hcf] at hc; cases hc
    · simp only [e, if_false]; exact hc
  · obtain ⟨pre, hpre⟩ := hok.top
    exact {
      wants := hok.wants
      threads := hok.threads
      range := by simpa using hok.range
      nodup := hok.nodup
      top := hok.top
      data := by
        have hd := hok.data
        have hn := hok.nodup
        rw [hp] at hd
        simp only [Phase.todo] at hd ⊢
        rw [← hd]
        simp only [hpre] at hn ⊢
        rw [grow_flatMap _ _ _ _ hn]
        simp
      short := by
        intro q hq'
        apply hok.short q
        rw [hp]; simp only [Phase.todo] at hq' ⊢; simp [hq']
      phase := by
        unfold PhaseOk
        simp only
        refine ⟨⟨?_, hq⟩, ?_⟩
        · show ((s.store.set f.top ((s.block f.top).append p)).getD f.top Block.empty).compressed = false
          rw [hget]; simp only [if_true, Block.append]; exact hcf
        · intro b hb hne
          have := hrest b hb hne
          have hbk : Sys.block { s with
              store := s.store.set f.top ((s.block f.top).append p)
              bufs := s.bufs.set i { f with phase := .writing todo } } b = s.block b := by
            show (s.store.set f.top ((s.block f.top).append p)).getD b Block.empty = _
            rw [hget]; simp [hne]
          by_cases hw : f.wants = true ∧ f.threads = true
          · rw [if_pos hw] at this ⊢
            rcases this with t | t
            · exact Or.inl t
            · right; rw [hbk]; exact t
          · rw [if_neg hw] at this ⊢
            refine ⟨?_, this.2⟩
            rw [hbk]; exact this.1 }

/-- A write that goes to a new block.  `mk` says whether the old one was marked. -/
theorem Inv.putNew (h : Inv z K jobs orig s) {i : Nat} {f : Buf} {p : Bytes} {todo : List Bytes} {waiting' : List Nat}
    (hf : s.bufs[i]? = some f) (hp : f.phase = .writing (p :: todo))
    (hm : (waiting' = s.waiting ∧ ¬ (f.wants = true ∧ f.threads = true)) ∨
      (waiting' = f.top :: s.waiting ∧ (f.wants = true ∧ f.threads = true) ∧ ∀ w : Nat, s.workers[w]? ≠ some .asleep)) :
    Inv z K jobs (grow orig s.store.length p) { s with
      store := (s.store ++ [Block.empty]).set s.store.length (Block.empty.append p)
      waiting := waiting'
      bufs := s.bufs.set i { f with top := s.store.length, blocks := f.blocks ++ [s.store.length], phase := .writing todo } } := by
  obtain ⟨j, hj⟩ := h.job hf
  have hok := h.bufs i f j hf hj
  have htop := hok.range _ hok.top_mem
  have hph := hok.phase
  unfold PhaseOk at hph
  simp only [hp] at hph
  obtain ⟨⟨hcf, hq⟩, hrest⟩ := hph
  have hpl : p.length ≤ max mb K := hok.short p (by rw [hp]; simp [Phase.todo])
  have hget : ∀ c, ((s.store ++ [Block.empty]).set s.store.length (Block.empty.append p)).getD c Block.empty
      = if c = s.store.length then Block.empty.append p else s.block c := by
    intro c
    rw [getD_set _ _ _ _ (by simp), getD_snoc]; rfl
  have horig : orig s.store.length = [] := h.block_beyond _ (Nat.le_refl _)
  have hgrow : grow orig s.store.length p s.store.length = p := by simp [grow, horig]
  have hgrow' : ∀ c, c ≠ s.store.length → grow orig s.store.length p c = orig c := by
    intro c hc; simp [grow, hc]
  have hwait : ∀ c ∈ waiting', c ∈ s.waiting ∨ c = f.top := by
    rcases hm with ⟨e, _⟩ | ⟨e, _⟩
    · intro c hc; rw [e] at hc; exact Or.inl hc
    · intro c hc; rw [e] at hc
      rcases List.mem_cons.mp hc with hc | hc
      · exact Or.inr hc
      · exact Or.inl hc
  have hwait' : ∀ c ∈ s.waiting, c ∈ waiting' := by
    rcases hm with ⟨e, _⟩ | ⟨e, _⟩
    · intro c hc; rw [e]; exact hc
    · intro c hc; rw [e]; simp [hc]
  have hnewq : s.store.length ∉ waiting' ∧ s.store.length ∉ s.working := by
    constructor
    · intro hc
      rcases hwait _ hc with hc | hc
      · have := h.rangeA _ hc; omega
      · omega
    · intro hc
      have := h.rangeB _ hc; omega
  refine h.own (store' := (s.store ++ [Block.empty]).set s.store.length (Block.empty.append p)) (waiting' := waiting')
    hf hj (by simp) ?_ ?_ ?_ ?_ ?_ ?_ ?_ ?_ ?_ ?_ ?_ ?_
  · intro c hc1 hc
    have : c ≠ f.top := by rintro rfl; exact hc hok.top_mem
    refine ⟨?_, hgrow' c (by omega), ?_⟩
    · rw [hget]; simp [Nat.ne_of_lt hc1]
    · constructor
      · intro hcm
        rcases hwait c hcm with h1 | h1
        · exact h1
        · exact absurd h1 this
      · exact hwait' c
  · intro c
    rw [hget]
    by_cases e : c = s.store.length
    · simp only [e, if_true, hgrow, Block.append]; intro _; rfl
    · simp only [e, if_false, hgrow' c e]; exact h.plain c
  · intro c
    rw [hget]
    by_cases e : c = s.store.length
    · simp only [e, if_true, Block.append, Block.empty]; intro hc; cases hc
    · simp only [e, if_false, hgrow' c e]; exact h.packed c
  · intro c
    rw [hget]
    by_cases e : c = s.store.length
    · simp only [e, if_true, Block.append, Block.empty]; intro hc; cases hc
    · simp only [e, if_false]; exact h.torn c
  · intro c
    by_cases e : c = s.store.length
    · rw [e, hgrow]; omega
    · rw [hgrow' c e]; exact h.small c
  · intro c hc
    rw [hget]
    by_cases e : c = s.store.length
    · subst e
      have hblock : s.block s.store.length = Block.empty := by
        unfold Sys.block
        rw [List.getD_eq_getElem?_getD, List.getElem?_eq_none (Nat.le_refl _)]; rfl
      rw [hblock] at hc; cases hc
    · simp only [e, if_false]; exact hc
  · rcases hm with ⟨e, _⟩ | ⟨e, _⟩
    · rw [e]; exact h.nodupA
    · rw [e]; exact List.nodup_cons.mpr ⟨hq.1, h.nodupA⟩
  · intro c hc
    rcases hwait c hc with hc | rfl
    · exact h.disj c hc
    · exact hq.2
  · intro c hc
    simp only [List.length_set, List.length_append, List.length_cons, List.length_nil]
    rcases hwait c hc with hc | rfl
    · have := h.rangeA c hc; omega
    · omega
  · rcases hm with ⟨e, _⟩ | ⟨_, _, e⟩
    · exact Or.inl e
    · exact Or.inr e
  · intro b hb
    rcases List.mem_append.mp hb with hb | hb
    · exact Or.inl hb
    · right; simp only [List.mem_singleton] at hb; omega
  · have hnotin : s.store.length ∉ f.blocks := fun hc => by have := hok.range _ hc; omega
    exact {
      wants := hok.wants
      threads := hok.threads
      range := by
        intro b hb
        simp only [List.length_set, List.length_append, List.length_cons, List.length_nil]
        rcases List.mem_append.mp hb with hb | hb
        · have := hok.range b hb; omega
        · simp only [List.mem_singleton] at hb; omega
      nodup := by
        simp only
        rw [List.nodup_append]
        refine ⟨hok.nodup, by simp, ?_⟩
        intro a ha b hb e
        simp only [List.mem_singleton] at hb
        subst hb; subst e; exact hnotin ha
      top := ⟨f.blocks, rfl⟩
      data := by
        have hd := hok.data
        rw [hp] at hd
        simp only [Phase.todo] at hd ⊢
        rw [grow_flatMap]
        · rw [← hd]; simp [List.flatMap_append, horig]
        · rw [List.nodup_append]
          refine ⟨hok.nodup, by simp, ?_⟩
          intro a ha b hb e
          simp only [List.mem_singleton] at hb
          subst hb; subst e; exact hnotin ha
      short := by
        intro q hq'
        apply hok.short q
        rw [hp]; simp only [Phase.todo] at hq' ⊢; simp [hq']
      phase := by
        unfold PhaseOk
        simp only
        refine ⟨⟨?_, hnewq⟩, ?_⟩
        · simp only [Sys.block]; rw [hget]; simp only [if_true, Block.append]; rfl
        · intro b hb hne
          have hbf : b ∈ f.blocks := by
            rcases List.mem_append.mp hb with hb | hb
            · exact hb
            · simp only [List.mem_singleton] at hb; exact absurd hb hne
          have hbk : ((s.store ++ [Block.empty]).set s.store.length (Block.empty.append p)).getD b Block.empty = s.block b := by
            rw [hget]; simp [hne]
          by_cases hw : f.wants = true ∧ f.threads = true
          · rw [if_pos hw]
            rcases hm with ⟨_, e⟩ | ⟨e, _⟩
            · exact absurd hw e
            · by_cases hbt : b = f.top
              · left; left; simp only [e]; simp [hbt]
              · have := hrest b hbf hbt
                rw [if_pos hw] at this
                rcases this with (t | t) | t
                · exact Or.inl (Or.inl (hwait' b t))
                · exact Or.inl (Or.inr t)
                · right; simp only [Sys.block] at hbk ⊢; rw [hbk]; exact t
          · rw [if_neg hw]
            rcases hm with ⟨e, _⟩ | ⟨e, hno⟩
            · have hopen : Open s b := by
                by_cases hbt : b = f.top
                · rw [hbt]; exact ⟨hcf, hq⟩
                · have := hrest b hbf hbt
                  rw [if_neg hw] at this; exact this
              refine ⟨?_, ?_⟩
              · simp only [Sys.block] at hbk ⊢; rw [hbk]; exact hopen.1
              · refine ⟨?_, hopen.2.2⟩
                simp only [e]; exact hopen.2.1
            · exact absurd hno.1 hw }

theorem mark_threads {s : Sys} {t : Bool} {b : Nat} (ht : t = true) (hb : b ∉ s.waiting) :
    s.mark t b = { s.notify with waiting := b :: s.waiting } := by
  unfold Sys.mark
  rw [if_pos ht, if_neg hb]; rfl

theorem mark_alone {s : Sys} {t : Bool} {b : Nat} (ht : t ≠ true) : s.mark t b = s := by
  unfold Sys.mark
  rw [if_neg ht]

/-- A serializer writes a piece. -/
theorem Inv.put (h : Inv z K jobs orig s) {i : Nat} {f : Buf} {p : Bytes} {todo : List Bytes}
    (hf : s.bufs[i]? = some f) (hp : f.phase = .writing (p :: todo)) :
    ∃ orig', Inv z K jobs orig' (put s i f p todo) := by
  obtain ⟨j, hj⟩ := h.job hf
  have hok := h.bufs i f j hf hj
  have hph := hok.phase
  unfold PhaseOk at hph
  simp only [hp] at hph
  have hq := hph.1.2
  unfold Stream.put checkTop
  by_cases ho : (s.block f.top).oversized = true
  · rw [if_pos ho]
    have hb : ({ s with store := s.store ++ [Block.empty] } : Sys).block s.store.length = Block.empty := by
      unfold Sys.block
      rw [getD_snoc, List.getD_eq_getElem?_getD, List.getElem?_eq_none (Nat.le_refl _)]; rfl
    by_cases hw : f.wants = true ∧ f.threads = true
    · have hfn : s.notify.bufs[i]? = some f := by
        simp only [Sys.notify, List.getElem?_map, hf, Option.map_some, Option.some.injEq]
        unfold Buf.wake; rw [hp]
      have := h.notify.putNew (waiting' := f.top :: s.waiting) hfn hp (Or.inr ⟨rfl, hw, (notify_awake s).1⟩)
      refine ⟨grow orig s.store.length p, ?_⟩
      have hmk : (if f.wants = true then Sys.mark { s with store := s.store ++ [Block.empty] } f.threads (f.blocks.getLastD 0)
            else { s with store := s.store ++ [Block.empty] })
          = { s.notify with store := s.store ++ [Block.empty], waiting := f.top :: s.waiting } := by
        rw [if_pos hw.1, hok.last]; exact mark_threads hw.2 hq.1
      have hb' : ({ s.notify with store := s.store ++ [Block.empty], waiting := f.top :: s.waiting } : Sys).block s.store.length
          = Block.empty := hb
      simp only [hmk, hb']
      exact this
    · have := h.putNew (waiting' := s.waiting) hf hp (Or.inl ⟨rfl, hw⟩)
      refine ⟨grow orig s.store.length p, ?_⟩
      · have hmk : (if f.wants = true then Sys.mark { s with store := s.store ++ [Block.empty] } f.threads (f.blocks.getLastD 0)
            else { s with store := s.store ++ [Block.empty] }) = { s with store := s.store ++ [Block.empty] } := by
          by_cases hw1 : f.wants = true
          · rw [if_pos hw1]
            have : f.threads = false := by
              cases ht : f.threads with
              | false => rfl
              | true => exact absurd ⟨hw1, ht⟩ hw
            simp [Sys.mark, this]
          · rw [if_neg hw1]
        simp only [hmk, hb]
        exact this
  · rw [if_neg ho]
    exact ⟨_, h.putSame hf hp (by simpa using ho)⟩

/-- `finalize` begins. -/
theorem Inv.finalize (h : Inv z K jobs orig s) {i : Nat} {f : Buf}
    (hf : s.bufs[i]? = some f) (hp : f.phase = .writing []) :
    Inv z K jobs orig (finalize s i f) := by
  obtain ⟨j, hj⟩ := h.job hf
  have hok := h.bufs i f j hf hj
  have hph := hok.phase
  unfold PhaseOk at hph
  simp only [hp] at hph
  obtain ⟨hop, hrest⟩ := hph
  have hd := hok.data
  rw [hp] at hd
  unfold Stream.finalize
  by_cases hw : f.wants = true
  · rw [if_pos hw]
    by_cases ht : f.threads = true
    · rw [hok.last, mark_threads ht hop.2.1]
      have hfn : s.notify.bufs[i]? = some f := by
        simp only [Sys.notify, List.getElem?_map, hf, Option.map_some, Option.some.injEq]
        unfold Buf.wake; rw [hp]
      refine h.notify.own (store' := s.store) (waiting' := f.top :: s.waiting) (orig' := orig) hfn hj (Nat.le_refl _) ?_
        h.plain h.packed h.torn h.small (fun _ h => h) ?_ ?_ ?_ (Or.inr (notify_awake s).1) (fun b hb => Or.inl hb) ?_
      · intro c _ hc
        have : c ≠ f.top := by rintro rfl; exact hc hok.top_mem
        refine ⟨rfl, rfl, ?_⟩
        simp [this, Sys.notify]
      · exact List.nodup_cons.mpr ⟨hop.2.1, h.nodupA⟩
      · intro c hc
        rcases List.mem_cons.mp hc with rfl | hc
        · exact hop.2.2
        · exact h.disj c hc
      · intro c hc
        rcases List.mem_cons.mp hc with rfl | hc
        · exact hok.range _ hok.top_mem
        · exact h.rangeA c hc
      · exact {
          wants := hok.wants
          threads := hok.threads
          range := hok.range
          nodup := hok.nodup
          top := hok.top
          data := hd
          short := by intro p hp'; cases hp'
          phase := by
            unfold PhaseOk
            simp only
            refine ⟨hw, fun b hb => hb, fun b hb hn => absurd hb hn, ?_⟩
            intro b hb
            rw [if_pos ht]
            by_cases e : b = f.top
            · left; left; simp [e]
            · have := hrest b hb e
              rw [if_pos ⟨hw, ht⟩] at this
              rcases this with (t | t) | t
              · exact Or.inl (Or.inl (List.mem_cons_of_mem _ t))
              · exact Or.inl (Or.inr t)
              · exact Or.inr t }
    · have htf : f.threads = false := by simpa using ht
      rw [mark_alone ht]
      refine h.move hf hj (fun b hb => hb) ?_
      exact {
        wants := hok.wants
        threads := hok.threads
        range := hok.range
        nodup := hok.nodup
        top := hok.top
        data := hd
        short := by intro p hp'; cases hp'
        phase := by
          unfold PhaseOk
          simp only
          refine ⟨hw, fun b hb => hb, fun b hb hn => absurd hb hn, ?_⟩
          intro b hb
          rw [if_neg ht]
          by_cases e : b = f.top
          · rw [e]; exact hop.2
          · have := hrest b hb e
            rw [if_neg (fun h => ht h.2)] at this
            exact this.2 }
  · rw [if_neg hw]
    refine h.move hf hj (fun b hb => hb) ?_
    exact {
      wants := hok.wants
      threads := hok.threads
      range := hok.range
      nodup := hok.nodup
      top := hok.top
      data := hd
      short := by intro p hp'; cases hp'
      phase := by
        unfold PhaseOk
        simp only
        intro b hb
        rw [if_neg hw]
        by_cases e : b = f.top
        · rw [e]; exact hop
        · have := hrest b hb e
          rw [if_neg (fun h => hw h.1)] at this
          exact this }

/-- One turn of the loop of `finalize`. -/
theorem Inv.wait (h : Inv z K jobs orig s) {i : Nat} {f : Buf} {left : List Nat}
    (hf : s.bufs[i]? = some f) (hp : f.phase = .waiting left) :
    Inv z K jobs orig (waitStep z s i f left) := by
  obtain ⟨j, hj⟩ := h.job hf
  have hok := h.bufs i f j hf hj
  have hph := hok.phase
  unfold PhaseOk at hph
  simp only [hp] at hph
  obtain ⟨hw, hsub, hclosed, hleft⟩ := hph
  have hd := hok.data
  rw [hp] at hd
  cases left with
  | nil =>
    refine h.move hf hj (fun b hb => hb) ?_
    exact {
      wants := hok.wants
      threads := hok.threads
      range := hok.range
      nodup := hok.nodup
      top := hok.top
      data := hd
      short := by intro p hp'; cases hp'
      phase := by
        unfold PhaseOk
        simp only
        intro b hb
        rw [if_pos hw]
        exact hclosed b hb (by simp) }
  | cons b left =>
    unfold waitStep
    simp only
    by_cases ht : f.threads = true
    · rw [if_pos ht]
      by_cases hbusy : b ∈ s.waiting ∨ b ∈ s.working
      · rw [if_pos hbusy]
        refine h.move hf hj (fun b hb => hb) ?_
        exact {
          wants := hok.wants
          threads := hok.threads
          range := hok.range
          nodup := hok.nodup
          top := hok.top
          data := hd
          short := by intro p hp'; cases hp'
          phase := by
            unfold PhaseOk
            simp only
            exact ⟨hw, hsub, hclosed, hleft, ht, b, left, rfl, hbusy⟩ }
      · rw [if_neg hbusy]
        refine h.move hf hj (fun b hb => hb) ?_
        exact {
          wants := hok.wants
          threads := hok.threads
          range := hok.range
          nodup := hok.nodup
          top := hok.top
          data := hd
          short := by intro p hp'; cases hp'
          phase := by
            unfold PhaseOk
            simp only
            refine ⟨hw, fun c hc => hsub c (by simp [hc]), ?_, fun c hc => hleft c (by simp [hc])⟩
            intro c hc hcl
            by_cases e : c = b
            · subst e
              have := hleft c (by simp)
              rw [if_pos ht] at this
              rcases this with t | t
              · exact absurd t hbusy
              · exact ⟨t, fun h => hbusy (Or.inl h), fun h => hbusy (Or.inr h)⟩
            · exact hclosed c hc (by simp [e, hcl]) }
    · rw [if_neg ht]
      have hbm := hsub b (by simp)
      have hbr := hok.range b hbm
      have hbq := hleft b (by simp)
      rw [if_neg ht] at hbq
      have hget : ∀ c, (s.store.set b ((s.block b).compress z)).getD c Block.empty
          = if c = b then (s.block b).compress z else s.block c := fun c => getD_set _ _ _ _ hbr
      have hcomp : ((s.block b).compress z).compressed = true := by
        unfold Block.compress
        by_cases hc : (s.block b).compressed = true
        · rw [if_pos hc]; exact hc
        · rw [if_neg hc]
      have hkeep : ∀ c, (s.block c).compressed = true →
          (s.store.set b ((s.block b).compress z)).getD c Block.empty = s.block c := by
        intro c hc
        rw [hget]
        by_cases e : c = b
        · subst e; simp only [if_true]; unfold Block.compress; rw [if_pos hc]
        · simp only [e, if_false]
      refine h.own (store' := s.store.set b ((s.block b).compress z)) (waiting' := s.waiting) (orig' := orig) hf hj (by simp) ?_ ?_ ?_ ?_
        h.small ?_ h.nodupA h.disj (by simpa using h.rangeA) (Or.inl rfl) (fun b hb => Or.inl hb) ?_
      · intro c _ hc
        have : c ≠ b := by rintro rfl; exact hc hbm
        refine ⟨?_, rfl, Iff.rfl⟩
        rw [hget]; simp [this]
      · intro c
        rw [hget]
        by_cases e : c = b
        · simp only [e, if_true, hcomp]; intro hc; cases hc
        · simp only [e, if_false]; exact h.plain c
      · intro c
        rw [hget]
        by_cases e : c = b
        · subst e; simp only [if_true]; intro _
          unfold Block.compress
          by_cases hc : (s.block c).compressed = true
          · rw [if_pos hc]; exact h.packed c hc
          · rw [if_neg hc]
            refine ⟨?_, rfl⟩
            simp only [h.plain c (by simpa using hc)]
        · simp only [e, if_false]; exact h.packed c
      · intro c
        rw [hget]
        by_cases e : c = b
        · subst e; simp only [if_true]
          unfold Block.compress
          by_cases hc : (s.block c).compressed = true
          · rw [if_pos hc]; exact h.torn c
          · rw [if_neg hc]; intro hx; cases hx
        · simp only [e, if_false]; exact h.torn c
      · intro c hc
        rw [hkeep c hc]; exact hc
      · exact {
          wants := hok.wants
          threads := hok.threads
          range := by simpa using hok.range
          nodup := hok.nodup
          top := hok.top
          data := hd
          short := by intro p hp'; cases hp'
          phase := by
            unfold PhaseOk
            simp only
            refine ⟨hw, fun c hc => hsub c (by simp [hc]), ?_, ?_⟩
            · intro c hc hcl
              by_cases e : c = b
              · refine ⟨?_, ?_⟩
                · show ((s.store.set b ((s.block b).compress z)).getD c Block.empty).compressed = true
                  rw [hget, if_pos e]; exact hcomp
                · rw [e]; exact hbq
              · have := hclosed c hc (by simp [e, hcl])
                refine ⟨?_, this.2⟩
                show ((s.store.set b ((s.block b).compress z)).getD c Block.empty).compressed = true
                rw [hkeep c this.1]; exact this.1
            · intro c hc
              have := hleft c (by simp [hc])
              rw [if_neg ht] at this ⊢
              exact this }

/-- Every action of the process keeps the invariant. -/
theorem Inv.step (h : Inv z K jobs orig s) {a : Act} {s' : Sys} (hs : step z s a = some s') :
    ∃ orig', Inv z K jobs orig' s' := by
  cases a with
  | worker w pick => exact ⟨orig, h.worker hs⟩
  | serializer i =>
    simp only [Stream.step, stepSerializer] at hs
    cases hf : s.bufs[i]? with
    | none => simp [hf] at hs
    | some f =>
      simp only [hf] at hs
      cases hp : f.phase with
      | writing t =>
        cases t with
        | nil =>
          simp only [hp] at hs
          obtain rfl := Option.some.inj hs
          exact ⟨orig, h.finalize hf hp⟩
        | cons p t =>
          simp only [hp] at hs
          obtain rfl := Option.some.inj hs
          exact h.put hf hp
      | waiting l =>
        simp only [hp] at hs
        obtain rfl := Option.some.inj hs
        exact ⟨orig, h.wait hf hp⟩
      | asleep l => simp [hp] at hs
      | done => simp [hp] at hs

end Verif.Stream
