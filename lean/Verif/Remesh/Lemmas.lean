import Verif.Remesh.Spec
import Mathlib.Data.List.Nodup
import Mathlib.Tactic.Linarith
import Mathlib.Tactic.SplitIfs

set_option autoImplicit false

namespace Verif.Remesh

variable {α : Type}

section Waves

@[simp] theorem times_nil : Wave.times ([] : Wave α) = [] := rfl

@[simp] theorem times_append (u w : Wave α) : Wave.times (u ++ w) = u.times ++ w.times := by
  simp [Wave.times]

@[simp] theorem times_cons (x : ℚ × Sample α) (w : Wave α) : Wave.times (x :: w) = x.1 :: w.times := rfl

@[simp] theorem times_setAll (w : Wave α) (s : Sample α) : (w.setAll s).times = w.times := by
  simp [Wave.times, Wave.setAll]

theorem set_fresh {w : Wave α} {t : ℚ} (s : Sample α) (h : t ∉ w.times) : w.set t s = w ++ [(t, s)] := by
  simp [Wave.set, h]

theorem foldl_fresh {β : Type} (g : β → Sample α) :
    ∀ (l : List (ℚ × β)) (w : Wave α), (w.times ++ l.map Prod.fst).Nodup →
      l.foldl (fun w x => Wave.set w x.1 (g x.2)) w = w ++ l.map fun x => (x.1, g x.2)
  | [], w, _ => by simp
  | x :: l, w, h => by
    have hx : x.1 ∉ w.times := by
      intro hm
      have := List.nodup_append.1 h
      exact this.2.2 _ hm _ (by simp) rfl
    rw [List.foldl_cons, set_fresh _ hx, foldl_fresh g l]
    · simp
    · simpa [List.append_assoc] using h

theorem head_mem {w : Wave α} {a t : ℚ} (h : w.times = [] ∨ w.times = [a]) (m : t ∈ w.times) : t = a := by
  rcases h with h | h <;> simp [h] at m; exact m

theorem mem_times {w : Wave α} {x : ℚ × Sample α} (h : x ∈ w) : x.1 ∈ w.times :=
  List.mem_map_of_mem h

theorem head_nodup {w : Wave α} {a : ℚ} (h : w.times = [] ∨ w.times = [a]) : w.times.Nodup := by
  rcases h with h | h <;> simp [h]

theorem trimAfter_all {w : Wave α} {a : ℚ} (h : ∀ t ∈ w.times, t ≤ a) : w.trimAfter a = w := by
  unfold Wave.trimAfter
  rw [List.filter_eq_self]
  intro x hx
  simpa using h _ (mem_times hx)

theorem trimAfter_none {w : Wave α} {a : ℚ} (h : ∀ t ∈ w.times, a < t) : w.trimAfter a = [] := by
  unfold Wave.trimAfter
  rw [List.filter_eq_nil_iff]
  intro x hx
  simpa using h _ (mem_times hx)

theorem trimBefore_none {w : Wave α} {a : ℚ} (h : ∀ t ∈ w.times, t < a) : w.trimBefore a = [] := by
  unfold Wave.trimBefore
  rw [List.filter_eq_nil_iff]
  intro x hx
  simpa using h _ (mem_times hx)

theorem trimAfter_append (u w : Wave α) (a : ℚ) : (u ++ w).trimAfter a = u.trimAfter a ++ w.trimAfter a := by
  simp [Wave.trimAfter]

theorem trimBefore_append (u w : Wave α) (a : ℚ) : (u ++ w).trimBefore a = u.trimBefore a ++ w.trimBefore a := by
  simp [Wave.trimBefore]

theorem trimBefore_end {w : Wave α} {b : ℚ} (s : Sample α) (h : ∀ t ∈ w.times, t < b) :
    Wave.trimBefore (w ++ [(b, s)]) b = [(b, s)] := by
  rw [trimBefore_append, trimBefore_none h]
  simp [Wave.trimBefore]

theorem move_end (w : Wave α) (x : ℚ × Sample α) : Wave.move (w ++ [x]) = [x] := by
  unfold Wave.move
  split_ifs with h
  · simp
  · have : w = [] := by
      cases w with
      | nil => rfl
      | cons y w => simp at h
    simp [this]

/-- Waves of one window with at most the sample of its start among those not after the start. -/
theorem trimAfter_head {w : Wave α} {a : ℚ} (hn : w.times.Nodup) (h : ∀ t ∈ w.times, a ≤ t) :
    (w.trimAfter a).times = [] ∨ (w.trimAfter a).times = [a] := by
  have hs : (w.trimAfter a).times.Nodup :=
    (List.Sublist.map Prod.fst List.filter_sublist).nodup hn
  have hall : ∀ t ∈ (w.trimAfter a).times, t = a := by
    intro t ht
    obtain ⟨x, hx, rfl⟩ := List.mem_map.1 ht
    have := List.mem_filter.1 hx
    have h1 : x.1 ≤ a := by simpa using this.2
    exact le_antisymm h1 (h _ (mem_times this.1))
  generalize (w.trimAfter a).times = l at hs hall
  match l, hs, hall with
  | [], _, _ => exact Or.inl rfl
  | [t], _, hall => exact Or.inr (by rw [hall t (by simp)])
  | t :: u :: l, hs, hall =>
    exfalso
    have h1 := hall t (by simp)
    have h2 := hall u (by simp)
    rw [h1, h2] at hs
    simp at hs

end Waves

/-- What holds before every advance. -/
structure Inv (c : Config α) (s : State α) : Prop where
  lt : s.start < s.stop
  sized : Sized c s
  src : s.src.times = [] ∨ s.src.times = [s.start]
  mapped : s.mapped.times = [] ∨ s.mapped.times = [s.start]
  gotNodup : s.got.times.Nodup
  gotGe : ∀ t ∈ s.got.times, s.start ≤ t
  gotLe : ∀ t ∈ s.got.times, t ≤ s.stop
  gotEnd : c.substeps = false → ∃ g, (g.times = [] ∨ g.times = [s.start]) ∧ (s.got = g ∨ ∃ x, s.got = g ++ [(s.stop, x)])
  same : c.substeps = true → (s.sent c).trimAfter s.start = s.got.trimAfter s.start
  tgtNodup : s.tgt.times.Nodup
  tgtGe : ∀ t ∈ s.tgt.times, s.start ≤ t
  tgtLe : c.implicit = false → ∀ t ∈ s.tgt.times, t ≤ s.start
  tgtHead : c.kind = .read → s.start ∈ s.got.times → s.start ∈ s.tgt.times

/-- After remeshing. -/
structure Mid (c : Config α) (s : State α) : Prop where
  lt : s.start < s.stop
  sized : Sized c s
  srcNodup : s.src.times.Nodup
  srcGe : ∀ t ∈ s.src.times, s.start ≤ t
  srcLt : ∀ t ∈ s.src.times, t < s.stop
  mapped : s.mapped.times = [] ∨ s.mapped.times = [s.start]
  gotEnd : c.substeps = false → ∃ g, (g.times = [] ∨ g.times = [s.start]) ∧ (s.got = g ∨ ∃ x, s.got = g ++ [(s.stop, x)])
  tgtNodup : s.tgt.times.Nodup
  tgtGe : ∀ t ∈ s.tgt.times, s.start ≤ t
  tgtLe : c.implicit = false → ∀ t ∈ s.tgt.times, t ≤ s.start

/-- Values written before the end of the window. -/
def pre (c : Config α) (i : Input α) (n : ℕ) : Wave α :=
  (if c.substeps then i.subs else []).map fun x => (x.1, ⟨n, x.2⟩)

theorem pre_times (c : Config α) (i : Input α) (n : ℕ) :
    (pre c i n).times = (if c.substeps then i.subs else []).map Prod.fst := by
  simp [pre, Wave.times, Function.comp_def]

theorem pre_gt {c : Config α} {i : Input α} {a b : ℚ} (h : i.Valid a b) (n : ℕ) :
    ∀ t ∈ (pre c i n).times, a < t ∧ t < b := by
  intro t ht
  rw [pre_times] at ht
  split_ifs at ht with hc
  · obtain ⟨x, hx, rfl⟩ := List.mem_map.1 ht
    exact ⟨h.after x hx, h.before x hx⟩
  · simp at ht

theorem pre_nodup {c : Config α} {i : Input α} {a b : ℚ} (h : i.Valid a b) (n : ℕ) : (pre c i n).times.Nodup := by
  rw [pre_times]
  split_ifs
  · exact h.sorted.imp fun h => ne_of_lt h
  · simp

theorem stepSubs_eq {c : Config α} {i : Input α} {s : State α} (hi : Inv c s) (hv : i.Valid s.start s.stop) :
    stepSubs c i s = { s with src := s.src ++ pre c i s.nS } := by
  unfold stepSubs pre
  cases hc : c.substeps
  · simp
  · simp only [if_true]
    rw [foldl_fresh (fun v => ⟨s.nS, v⟩)]
    rw [List.nodup_append]
    refine ⟨head_nodup hi.src, hv.sorted.imp fun h => ne_of_lt h, ?_⟩
    intro t ht u hu
    rw [head_mem hi.src ht]
    obtain ⟨x, hx, rfl⟩ := List.mem_map.1 hu
    exact ne_of_lt (hv.after x hx)

theorem gotEnd_setAll {g0 : Wave α} {a b : ℚ} (z : Sample α)
    (h : ∃ g : Wave α, (g.times = [] ∨ g.times = [a]) ∧ (g0 = g ∨ ∃ x, g0 = g ++ [(b, x)])) :
    ∃ g : Wave α, (g.times = [] ∨ g.times = [a]) ∧ (g0.setAll z = g ∨ ∃ x, g0.setAll z = g ++ [(b, x)]) := by
  obtain ⟨g, hg, h⟩ := h
  refine ⟨g.setAll z, by simpa using hg, ?_⟩
  rcases h with rfl | ⟨x, rfl⟩
  · exact Or.inl rfl
  · exact Or.inr ⟨z, by simp [Wave.setAll]⟩

theorem gotEnd_nil (a b : ℚ) :
    ∃ g : Wave α, (g.times = [] ∨ g.times = [a]) ∧ (([] : Wave α) = g ∨ ∃ x, ([] : Wave α) = g ++ [(b, x)]) :=
  ⟨[], Or.inl rfl, Or.inl rfl⟩

theorem mid {c : Config α} {i : Input α} {s : State α} (hi : Inv c s) (hv : i.Valid s.start s.stop) :
    Mid c (stepRemesh c i (stepSubs c i s)) ∧ (stepRemesh c i (stepSubs c i s)).start = s.start ∧
      (stepRemesh c i (stepSubs c i s)).stop = s.stop ∧
      (stepRemesh c i (stepSubs c i s)).nS = newS i s.nS ∧ (stepRemesh c i (stepSubs c i s)).nR = newR i s.nR := by
  rw [stepSubs_eq hi hv]
  have hsn : (s.src ++ pre c i s.nS).times.Nodup := by
    rw [times_append, List.nodup_append]
    refine ⟨head_nodup hi.src, pre_nodup hv _, ?_⟩
    intro t ht u hu
    rw [head_mem hi.src ht]
    exact ne_of_lt (pre_gt hv _ u hu).1
  have hsge : ∀ t ∈ (s.src ++ pre c i s.nS).times, s.start ≤ t := by
    intro t ht
    rw [times_append, List.mem_append] at ht
    rcases ht with ht | ht
    · exact le_of_eq (head_mem hi.src ht).symm
    · exact le_of_lt (pre_gt hv _ t ht).1
  have hslt : ∀ t ∈ (s.src ++ pre c i s.nS).times, t < s.stop := by
    intro t ht
    rw [times_append, List.mem_append] at ht
    rcases ht with ht | ht
    · rw [head_mem hi.src ht]; exact hi.lt
    · exact (pre_gt hv _ t ht).2
  have hsz : ∀ x ∈ s.src ++ pre c i s.nS, x.2.n = s.nS := by
    intro x hx
    rw [List.mem_append] at hx
    rcases hx with hx | hx
    · exact hi.sized.src x hx
    · obtain ⟨y, _, rfl⟩ := List.mem_map.1 hx
      rfl
  have hlt := hi.lt
  have hm := hi.sized.mapped
  have hg := hi.sized.got
  have ht := hi.sized.tgt
  have hmap := hi.mapped
  have hge := hi.gotEnd
  have htn := hi.tgtNodup
  have htg := hi.tgtGe
  have htl := hi.tgtLe
  generalize s.src ++ pre c i s.nS = u at *
  have hall : ∀ (w : Wave α) (n : ℕ) (x), x ∈ w.setAll ⟨n, c.zero⟩ → x.2.n = n := by
    intro w n x hx
    obtain ⟨y, _, rfl⟩ := List.mem_map.1 hx
    rfl
  have hnil : ∀ z : Sample α, Wave.setAll [] z = [] := fun _ => rfl
  cases hS : i.chS <;> cases hR : i.chR <;> cases hk : c.kind <;> cases him : c.implicit <;>
    simp only [stepRemesh, resetReader, resetSender, hS, hR, Input.remeshed, Option.isSome, clearReceived,
      reinitialize, him, Bool.or_false, Bool.or_true, if_true, if_false, newS, newR,
      Option.getD, and_self, and_true, Bool.false_eq_true, hk, hnil] <;>
    simp only [hk] at hg <;> simp only [him] at htl <;>
    refine ⟨hlt, ⟨?_, ?_, ?_, ?_⟩, ?_, ?_, ?_, ?_, ?_, ?_, ?_, ?_⟩ <;>
    first
      | assumption
      | exact hall _ _
      | (simp only [times_setAll]; assumption)
      | exact fun h => gotEnd_setAll _ (hge h)
      | exact fun _ => gotEnd_nil _ _
      | (simp only [hk]; first | assumption | exact hall _ _)
      | (simp [hk, him]; done)
      | exact fun _ => htl trivial

/-- The samples that the sender has before the last one. -/
def base (c : Config α) (s : State α) : Wave α := match c.kind with
  | .write => s.mapped ++ (s.src.filter fun x => decide (s.start < x.1)).map fun x => (x.1, ⟨s.nR, c.f s.nS s.nR x.2.v⟩)
  | _ => s.src

/-- The last sample sent. -/
def lastSent (c : Config α) (i : Input α) (s : State α) : Sample α := match c.kind with
  | .write => ⟨s.nR, c.f s.nS s.nR i.v⟩
  | _ => ⟨s.nS, i.v⟩

/-- The samples that the reader has before the last one. -/
def before (c : Config α) (s : State α) : Wave α :=
  if c.substeps then base c s else s.got.filter fun x => decide (x.1 ≠ s.stop)

/-- State after storing and mapping what has been written. -/
def afterWrite (c : Config α) (i : Input α) (s : State α) : State α :=
  { s with
    src := s.src ++ [(s.stop, ⟨s.nS, i.v⟩)]
    mapped := match c.kind with | .write => base c s ++ [(s.stop, lastSent c i s)] | _ => s.mapped }

theorem stepWrite_eq {c : Config α} (i : Input α) {s : State α} (h : Mid c s) :
    stepWrite c i s = some (afterWrite c i s) := by
  have hf : s.stop ∉ s.src.times := fun hm => lt_irrefl _ (h.srcLt _ hm)
  unfold stepWrite afterWrite
  rw [set_fresh _ hf]
  cases hk : c.kind
  · rfl
  · rfl
  · simp only [mapData, base, lastSent, hk]
    have hfil : ((s.src ++ [(s.stop, (⟨s.nS, i.v⟩ : Sample α))]).filter fun x => decide (s.start < x.1) &&
        decide (x.1 ∉ s.mapped.times)) =
        (s.src.filter fun x => decide (s.start < x.1)) ++ [(s.stop, ⟨s.nS, i.v⟩)] := by
      rw [List.filter_append]
      congr 1
      · apply List.filter_congr
        intro x _
        by_cases hx : s.start < x.1
        · have : x.1 ∉ s.mapped.times := fun hm => by
            have := head_mem h.mapped hm
            rw [this] at hx
            exact lt_irrefl _ hx
          simp [hx, this]
        · simp [hx]
      · have : s.stop ∉ s.mapped.times := fun hm => by
          have h1 := head_mem h.mapped hm
          have h2 := h.lt
          rw [h1] at h2
          exact lt_irrefl _ h2
        simp [h.lt, this]
    rw [hfil]
    have hall : (((s.src.filter fun x => decide (s.start < x.1)) ++ [(s.stop, (⟨s.nS, i.v⟩ : Sample α))]).all
        fun x => x.2.n = s.nS) = true := by
      rw [List.all_eq_true]
      intro x hx
      rw [List.mem_append] at hx
      rcases hx with hx | hx
      · simpa using h.sized.src x (List.mem_filter.1 hx).1
      · simp at hx
        simp [hx]
    rw [if_pos hall, foldl_fresh (fun x : Sample α => ⟨s.nR, c.f s.nS s.nR x.v⟩)]
    · simp
    · rw [List.nodup_append]
      refine ⟨head_nodup h.mapped, ?_, ?_⟩
      · rw [List.map_append, List.nodup_append]
        refine ⟨(List.Sublist.map Prod.fst List.filter_sublist).nodup h.srcNodup, by simp, ?_⟩
        intro t ht u hu
        simp only [List.map_cons, List.map_nil, List.mem_singleton] at hu
        obtain ⟨x, hx, rfl⟩ := List.mem_map.1 ht
        rw [hu]
        exact ne_of_lt (h.srcLt _ (mem_times (List.mem_filter.1 hx).1))
      · intro t ht u hu
        rw [head_mem h.mapped ht]
        rw [List.map_append, List.mem_append] at hu
        rcases hu with hu | hu
        · obtain ⟨x, hx, rfl⟩ := List.mem_map.1 hu
          have := (List.mem_filter.1 hx).2
          exact ne_of_lt (by simpa using this)
        · simp only [List.map_cons, List.map_nil, List.mem_singleton] at hu
          rw [hu]
          exact ne_of_lt h.lt

theorem base_low {c : Config α} {s : State α} (h : Mid c s) :
    (base c s).times.Nodup ∧ (∀ t ∈ (base c s).times, s.start ≤ t) ∧ (∀ t ∈ (base c s).times, t < s.stop) ∧
      (∀ x ∈ base c s, x.2.n = c.size s) := by
  have hg := h.sized.src
  cases hk : c.kind
  · simp only [base, hk, Config.size]
    exact ⟨h.srcNodup, h.srcGe, h.srcLt, hg⟩
  · simp only [base, hk, Config.size]
    exact ⟨h.srcNodup, h.srcGe, h.srcLt, hg⟩
  · simp only [base, hk, Config.size]
    have e : Wave.times ((s.src.filter fun x => decide (s.start < x.1)).map fun x =>
        (x.1, (⟨s.nR, c.f s.nS s.nR x.2.v⟩ : Sample α))) = (s.src.filter fun x => decide (s.start < x.1)).map Prod.fst := by
      simp [Wave.times, Function.comp_def]
    have hgt : ∀ t ∈ (s.src.filter fun x => decide (s.start < x.1)).map Prod.fst, s.start < t ∧ t < s.stop := by
      intro t ht
      obtain ⟨x, hx, rfl⟩ := List.mem_map.1 ht
      have hm := List.mem_filter.1 hx
      exact ⟨by simpa using hm.2, h.srcLt _ (mem_times hm.1)⟩
    refine ⟨?_, ?_, ?_, ?_⟩
    · rw [times_append, e, List.nodup_append]
      refine ⟨head_nodup h.mapped, (List.Sublist.map Prod.fst List.filter_sublist).nodup h.srcNodup, ?_⟩
      intro t ht u hu
      rw [head_mem h.mapped ht]
      exact ne_of_lt (hgt u hu).1
    · intro t ht
      rw [times_append, e, List.mem_append] at ht
      rcases ht with ht | ht
      · exact le_of_eq (head_mem h.mapped ht).symm
      · exact le_of_lt (hgt t ht).1
    · intro t ht
      rw [times_append, e, List.mem_append] at ht
      rcases ht with ht | ht
      · rw [head_mem h.mapped ht]; exact h.lt
      · exact (hgt t ht).2
    · intro x hx
      rw [List.mem_append] at hx
      rcases hx with hx | hx
      · exact h.sized.mapped hk x hx
      · obtain ⟨y, _, rfl⟩ := List.mem_map.1 hx
        rfl

theorem sent_eq (c : Config α) (i : Input α) (s : State α) :
    (afterWrite c i s).sent c = base c s ++ [(s.stop, lastSent c i s)] := by
  cases hk : c.kind <;> simp [State.sent, afterWrite, hk, base, lastSent]

theorem lastSent_n (c : Config α) (i : Input α) (s : State α) : (lastSent c i s).n = c.size s := by
  cases hk : c.kind <;> simp [lastSent, hk, Config.size]

/-- State after the exchange. -/
def afterExchange (c : Config α) (i : Input α) (s : State α) : State α :=
  { afterWrite c i s with got := before c s ++ [(s.stop, lastSent c i s)] }

theorem stepExchange_eq {c : Config α} (i : Input α) {s : State α} (h : Mid c s) :
    stepExchange c (afterWrite c i s) = some (afterExchange c i s) := by
  obtain ⟨bn, bge, blt, bsz⟩ := base_low h
  have hsz : c.size (afterWrite c i s) = c.size s := by cases hk : c.kind <;> simp [Config.size, hk, afterWrite]
  unfold stepExchange
  rw [sent_eq, hsz]
  have hall : ((base c s ++ [(s.stop, lastSent c i s)]).all fun x => x.2.n = c.size s) = true := by
    rw [List.all_eq_true]
    intro x hx
    rw [List.mem_append] at hx
    rcases hx with hx | hx
    · simpa using bsz x hx
    · simp at hx
      simp [hx, lastSent_n]
  rw [if_pos hall]
  cases hc : c.substeps
  · have : (base c s ++ [(s.stop, lastSent c i s)]).getLast? = some (s.stop, lastSent c i s) := by simp
    simp only [this, Bool.false_eq_true, if_false]
    unfold afterExchange before
    rw [hc]
    simp only [Bool.false_eq_true, if_false]
    have hgot : (afterWrite c i s).got = s.got := rfl
    have hstop : (afterWrite c i s).stop = s.stop := rfl
    rw [hgot, hstop]
    obtain ⟨g, hg, hgg⟩ := h.gotEnd hc
    have hn : s.stop ∉ g.times := fun hm => by
      have h1 := head_mem hg hm
      have h2 := h.lt
      rw [h1] at h2
      exact lt_irrefl _ h2
    have hfg : (g.filter fun x => decide (x.1 ≠ s.stop)) = g := by
      rw [List.filter_eq_self]
      intro x hx
      have : x.1 ≠ s.stop := fun e => hn (e ▸ mem_times hx)
      simpa using this
    rcases hgg with e | ⟨y, e⟩
    · rw [e, set_fresh _ hn, hfg]
    · have : Wave.set (g ++ [(s.stop, y)]) s.stop (lastSent c i s) = g ++ [(s.stop, lastSent c i s)] := by
        unfold Wave.set
        rw [if_pos (by simp), List.map_append]
        congr 1
        · rw [List.map_congr_left (g := id)]
          · simp
          · intro x hx
            have : x.1 ≠ s.stop := fun e => hn (e ▸ mem_times hx)
            simp [this]
        · simp
      rw [e, this, List.filter_append, hfg]
      simp
  · simp only [if_true]
    rw [if_neg (by simp), foldl_fresh (fun x : Sample α => x)]
    · simp [afterExchange, before, hc]
    · have e : List.map Prod.fst (base c s ++ [(s.stop, lastSent c i s)]) = (base c s).times ++ [s.stop] := by
        simp [Wave.times]
      rw [e, times_nil, List.nil_append, List.nodup_append]
      refine ⟨bn, by simp, ?_⟩
      intro t ht u hu
      simp only [List.mem_singleton] at hu
      rw [hu]
      exact ne_of_lt (blt t ht)

theorem before_low {c : Config α} {s : State α} (h : Mid c s) :
    (before c s).times.Nodup ∧ (∀ t ∈ (before c s).times, s.start ≤ t) ∧ (∀ t ∈ (before c s).times, t < s.stop) ∧
      (∀ x ∈ before c s, x.2.n = c.size s) ∧
      (c.substeps = false → (before c s).times = [] ∨ (before c s).times = [s.start]) := by
  obtain ⟨bn, bge, blt, bsz⟩ := base_low h
  unfold before
  cases hc : c.substeps
  · simp only [Bool.false_eq_true, if_false]
    obtain ⟨g, hg, hgg⟩ := h.gotEnd hc
    have hn : s.stop ∉ g.times := fun hm => by
      have h1 := head_mem hg hm
      have h2 := h.lt
      rw [h1] at h2
      exact lt_irrefl _ h2
    have hfg : (g.filter fun x => decide (x.1 ≠ s.stop)) = g := by
      rw [List.filter_eq_self]
      intro x hx
      have : x.1 ≠ s.stop := fun e => hn (e ▸ mem_times hx)
      simpa using this
    have hf : (s.got.filter fun x => decide (x.1 ≠ s.stop)) = g := by
      rcases hgg with e | ⟨y, e⟩
      · rw [e, hfg]
      · rw [e, List.filter_append, hfg]
        simp
    have hsub : ∀ x ∈ s.got.filter (fun x => decide (x.1 ≠ s.stop)), x.2.n = c.size s := by
      intro x hx
      have := h.sized.got x (List.mem_filter.1 hx).1
      exact this
    rw [hf] at hsub ⊢
    refine ⟨head_nodup hg, fun t ht => le_of_eq (head_mem hg ht).symm, fun t ht => ?_, hsub, fun _ => hg⟩
    rw [head_mem hg ht]
    exact h.lt
  · simp only [if_true]
    exact ⟨bn, bge, blt, bsz, fun h => by simp at h⟩

/-- State after a window that is complete. -/
def finComplete (c : Config α) (i : Input α) (s : State α) : State α :=
  { s with
    start := s.stop
    stop := i.next
    src := [(s.stop, ⟨s.nS, i.v⟩)]
    mapped := match c.kind with | .write => [(s.stop, lastSent c i s)] | _ => []
    got := [(s.stop, lastSent c i s)]
    tgt := match c.kind with | .read => [(s.stop, ⟨s.nR, c.f s.nS s.nR i.v⟩)] | _ => [] }

/-- State after a window that is repeated. -/
def finRepeat (c : Config α) (i : Input α) (s : State α) : State α :=
  { s with
    src := s.src.trimAfter s.start
    got := before c s ++ [(s.stop, lastSent c i s)]
    tgt := match c.kind with
      | .read => s.tgt.trimAfter s.start ++
          ((before c s).filter fun x => decide (x.1 ∉ (s.tgt.trimAfter s.start).times)).map (fun x =>
            (x.1, ⟨s.nR, c.f s.nS s.nR x.2.v⟩)) ++ [(s.stop, ⟨s.nR, c.f s.nS s.nR i.v⟩)]
      | _ => s.tgt.trimAfter s.start }

theorem mapped_trimBefore {c : Config α} {s : State α} (h : Mid c s) : s.mapped.trimBefore s.stop = [] :=
  trimBefore_none fun _ ht => by rw [head_mem h.mapped ht]; exact h.lt

theorem mapped_trimAfter {c : Config α} {s : State α} (h : Mid c s) : s.mapped.trimAfter s.start = s.mapped :=
  trimAfter_all fun _ ht => le_of_eq (head_mem h.mapped ht)

theorem base_trimAfter {c : Config α} {s : State α} (h : Mid c s) (hk : c.kind = .write) :
    (base c s).trimAfter s.start = s.mapped := by
  simp only [base, hk]
  rw [trimAfter_append, mapped_trimAfter h, trimAfter_none, List.append_nil]
  intro t ht
  obtain ⟨y, hy, rfl⟩ := List.mem_map.1 ht
  obtain ⟨x, hx, rfl⟩ := List.mem_map.1 hy
  simpa using (List.mem_filter.1 hx).2

theorem last_trimAfter {a b : ℚ} (h : a < b) (x : Sample α) : Wave.trimAfter [(b, x)] a = [] :=
  trimAfter_none (by simpa using h)

theorem complete_eq {c : Config α} (i : Input α) {s : State α} (h : Mid c s) :
    (stepRead c (stepTrim c true (afterExchange c i s))).map (fun u => { u with start := u.stop, stop := i.next }) =
      some (finComplete c i s) := by
  obtain ⟨gn, gge, glt, gsz, _⟩ := before_low h
  obtain ⟨bn, bge, blt, bsz⟩ := base_low h
  have htgt : (if c.implicit = true then [] else s.tgt.trimBefore s.stop) = [] := by
    split_ifs with hc
    · rfl
    · refine trimBefore_none fun t ht => lt_of_le_of_lt (h.tgtLe (by simpa using hc) t ht) h.lt
  have hone : ∀ x : Sample α, Wave.trimBefore [(s.stop, x)] s.stop = [(s.stop, x)] := by
    intro x; simp [Wave.trimBefore]
  have hmp := mapped_trimBefore h
  cases hk : c.kind <;>
    simp only [stepTrim, moveAll, afterExchange, afterWrite, hk, if_true, move_end, hone, stepRead, finComplete, htgt,
      Option.map_some, hmp, trimBefore_end _ h.srcLt]
  · simp only [mapData, lastSent, hk]
    simp [Wave.set]

theorem repeat_eq {c : Config α} (i : Input α) {s : State α} (h : Mid c s) :
    stepRead c (stepTrim c false (afterExchange c i s)) = some (finRepeat c i s) := by
  obtain ⟨gn, gge, glt, gsz, _⟩ := before_low h
  have hsrc : Wave.trimAfter (s.src ++ [(s.stop, (⟨s.nS, i.v⟩ : Sample α))]) s.start = s.src.trimAfter s.start := by
    rw [trimAfter_append, last_trimAfter h.lt, List.append_nil]
  have hb : c.kind = .write → Wave.trimAfter (base c s ++ [(s.stop, lastSent c i s)]) s.start = s.mapped := fun hk => by
    rw [trimAfter_append, base_trimAfter h hk, last_trimAfter h.lt, List.append_nil]
  have hmp := mapped_trimAfter h
  cases hk : c.kind
  · simp only [stepTrim, afterExchange, afterWrite, hk, Bool.false_eq_true, if_false, hsrc, hmp, stepRead, finRepeat]
  · simp only [stepTrim, afterExchange, afterWrite, hk, Bool.false_eq_true, if_false, hsrc, hmp, stepRead, finRepeat,
      mapData]
    have hT := trimAfter_head h.tgtNodup h.tgtGe
    generalize s.tgt.trimAfter s.start = T at hT ⊢
    have hst : s.stop ∉ T.times := fun hm => by
      have h1 := head_mem hT hm
      have h2 := h.lt
      rw [h1] at h2
      exact lt_irrefl _ h2
    have hfil : ((before c s ++ [(s.stop, lastSent c i s)]).filter fun x => true && decide (x.1 ∉ T.times)) =
        ((before c s).filter fun x => decide (x.1 ∉ T.times)) ++ [(s.stop, lastSent c i s)] := by
      rw [List.filter_append]
      simp [hst]
    rw [hfil]
    have hls : lastSent c i s = ⟨s.nS, i.v⟩ := by simp [lastSent, hk]
    have hall : (((before c s).filter fun x => decide (x.1 ∉ T.times)) ++ [(s.stop, lastSent c i s)]).all
        (fun x => x.2.n = s.nS) = true := by
      rw [List.all_eq_true]
      intro x hx
      rw [List.mem_append] at hx
      rcases hx with hx | hx
      · have := gsz x (List.mem_filter.1 hx).1
        simp only [Config.size, hk] at this
        simpa using this
      · simp at hx
        simp [hx, hls]
    rw [if_pos hall, foldl_fresh (fun x : Sample α => ⟨s.nR, c.f s.nS s.nR x.v⟩)]
    · simp [hls]
    · rw [List.map_append, List.nodup_append]
      refine ⟨head_nodup hT, ?_, ?_⟩
      · rw [List.nodup_append]
        refine ⟨(List.Sublist.map Prod.fst List.filter_sublist).nodup gn, by simp, ?_⟩
        intro t ht u hu
        simp only [List.map_cons, List.map_nil, List.mem_singleton] at hu
        obtain ⟨x, hx, rfl⟩ := List.mem_map.1 ht
        rw [hu]
        exact ne_of_lt (glt _ (mem_times (List.mem_filter.1 hx).1))
      · intro t ht u hu e
        subst e
        rw [List.mem_append] at hu
        rcases hu with hu | hu
        · obtain ⟨x, hx, rfl⟩ := List.mem_map.1 hu
          have := (List.mem_filter.1 hx).2
          simp at this
          exact this ht
        · simp only [List.map_cons, List.map_nil, List.mem_singleton] at hu
          exact hst (hu ▸ ht)
  · simp only [stepTrim, afterExchange, afterWrite, hk, Bool.false_eq_true, if_false, hsrc, hb hk, stepRead, finRepeat]

/-- One window, in closed form. -/
theorem step_eq {c : Config α} {i : Input α} {s : State α} (hi : Inv c s) (hv : i.Valid s.start s.stop) :
    step c i s = some (if i.complete c then finComplete c i (stepRemesh c i (stepSubs c i s))
      else finRepeat c i (stepRemesh c i (stepSubs c i s))) := by
  have h := (mid hi hv).1
  unfold step
  generalize stepRemesh c i (stepSubs c i s) = m at h ⊢
  simp only [stepWrite_eq i h, Option.bind_eq_bind, Option.bind_some, stepExchange_eq i h]
  cases hc : i.complete c
  · simp only [repeat_eq i h, Option.bind_some, Bool.false_eq_true, if_false]
  · have := complete_eq i h
    simp only [if_true] at this ⊢
    rw [← this]
    cases stepRead c (stepTrim c true (afterExchange c i m)) <;> rfl

theorem inv_complete {c : Config α} {i : Input α} {s : State α} (hn : s.stop < i.next) :
    Inv c (finComplete c i s) := by
  have hl := lastSent_n c i s
  refine ⟨hn, ⟨?_, ?_, ?_, ?_⟩, ?_, ?_, ?_, ?_, ?_, ?_, ?_, ?_, ?_, ?_, ?_⟩
  · simp [finComplete]
  · intro hk
    simp [finComplete, hk, lastSent]
  · intro x hx
    simp only [finComplete, List.mem_singleton] at hx
    rw [hx]
    exact hl
  · cases hk : c.kind <;> simp [finComplete, hk]
  · simp [finComplete]
  · cases hk : c.kind <;> simp [finComplete, hk]
  · simp [finComplete]
  · simp [finComplete]
  · simp [finComplete, le_of_lt hn]
  · intro _
    exact ⟨[(s.stop, lastSent c i s)], Or.inr rfl, Or.inl rfl⟩
  · intro _
    cases hk : c.kind <;> simp [finComplete, hk, State.sent, lastSent]
  · cases hk : c.kind <;> simp [finComplete, hk]
  · cases hk : c.kind <;> simp [finComplete, hk]
  · cases hk : c.kind <;> simp [finComplete, hk]
  · intro hk
    simp [finComplete, hk]

theorem inv_repeat {c : Config α} {i : Input α} {s : State α} (h : Mid c s) (him : c.implicit = true) :
    Inv c (finRepeat c i s) := by
  have hl := lastSent_n c i s
  obtain ⟨gn, gge, glt, gsz, gh⟩ := before_low h
  have hT := trimAfter_head h.tgtNodup h.tgtGe
  have hTs : ∀ x ∈ s.tgt.trimAfter s.start, x.2.n = s.nR := fun x hx => h.sized.tgt x (List.mem_filter.1 hx).1
  have hgot : (finRepeat c i s).got.times = (before c s).times ++ [s.stop] := by simp [finRepeat]
  refine ⟨h.lt, ⟨?_, ?_, ?_, ?_⟩, ?_, ?_, ?_, ?_, ?_, ?_, ?_, ?_, ?_, ?_, ?_⟩
  · intro x hx
    exact h.sized.src x (List.mem_filter.1 hx).1
  · exact h.sized.mapped
  · intro x hx
    simp only [finRepeat, List.mem_append, List.mem_singleton] at hx
    rcases hx with hx | hx
    · exact gsz x hx
    · rw [hx]; exact hl
  · cases hk : c.kind <;> simp only [finRepeat, hk]
    · exact hTs
    · intro x hx
      rw [List.mem_append, List.mem_append] at hx
      rcases hx with (hx | hx) | hx
      · exact hTs x hx
      · obtain ⟨y, _, rfl⟩ := List.mem_map.1 hx
        rfl
      · simp at hx
        simp [hx]
    · exact hTs
  · exact trimAfter_head h.srcNodup h.srcGe
  · exact h.mapped
  · rw [hgot, List.nodup_append]
    refine ⟨gn, by simp, ?_⟩
    intro t ht u hu
    simp only [List.mem_singleton] at hu
    rw [hu]
    exact ne_of_lt (glt t ht)
  · intro t ht
    rw [hgot, List.mem_append] at ht
    rcases ht with ht | ht
    · exact gge t ht
    · simp at ht
      rw [ht]
      exact le_of_lt h.lt
  · intro t ht
    rw [hgot, List.mem_append] at ht
    rcases ht with ht | ht
    · exact le_of_lt (glt t ht)
    · simp at ht
      rw [ht]
      exact le_refl _
  · intro hc
    exact ⟨before c s, gh hc, Or.inr ⟨_, rfl⟩⟩
  · intro hc
    show (State.sent c (finRepeat c i s)).trimAfter s.start = Wave.trimAfter (before c s ++ [(s.stop, lastSent c i s)]) s.start
    rw [trimAfter_append, last_trimAfter h.lt, List.append_nil]
    simp only [before, hc, if_true]
    have tt : (s.src.trimAfter s.start).trimAfter s.start = s.src.trimAfter s.start := by simp [Wave.trimAfter]
    cases hk : c.kind
    · simp [State.sent, hk, finRepeat, base, tt]
    · simp [State.sent, hk, finRepeat, base, tt]
    · rw [base_trimAfter h hk]
      simp only [State.sent, hk, finRepeat]
      exact mapped_trimAfter h
  · cases hk : c.kind <;> simp only [finRepeat, hk]
    · exact head_nodup hT
    · generalize s.tgt.trimAfter s.start = T at hT ⊢
      have e : Wave.times (((before c s).filter fun x => decide (x.1 ∉ T.times)).map fun x =>
          (x.1, (⟨s.nR, c.f s.nS s.nR x.2.v⟩ : Sample α))) =
          ((before c s).filter fun x => decide (x.1 ∉ T.times)).map Prod.fst := by
        simp [Wave.times, Function.comp_def]
      rw [times_append, times_append, e, List.append_assoc, List.nodup_append]
      refine ⟨head_nodup hT, ?_, ?_⟩
      · rw [List.nodup_append]
        refine ⟨(List.Sublist.map Prod.fst List.filter_sublist).nodup gn, by simp, ?_⟩
        intro t ht u hu
        simp only [times_cons, times_nil, List.mem_singleton] at hu
        obtain ⟨x, hx, rfl⟩ := List.mem_map.1 ht
        rw [hu]
        exact ne_of_lt (glt _ (mem_times (List.mem_filter.1 hx).1))
      · intro t ht u hu e
        subst e
        rw [List.mem_append] at hu
        rcases hu with hu | hu
        · obtain ⟨x, hx, rfl⟩ := List.mem_map.1 hu
          have := (List.mem_filter.1 hx).2
          simp at this
          exact this ht
        · simp only [times_cons, times_nil, List.mem_singleton] at hu
          have h1 := head_mem hT ht
          have h2 := h.lt
          rw [← h1, hu] at h2
          exact lt_irrefl _ h2
    · exact head_nodup hT
  · have hTg : ∀ t ∈ (s.tgt.trimAfter s.start).times, s.start ≤ t := fun t ht => le_of_eq (head_mem hT ht).symm
    cases hk : c.kind <;> simp only [finRepeat, hk]
    · exact hTg
    · intro t ht
      rw [times_append, times_append, List.mem_append, List.mem_append] at ht
      rcases ht with (ht | ht) | ht
      · exact hTg t ht
      · obtain ⟨y, hy, rfl⟩ := List.mem_map.1 ht
        obtain ⟨x, hx, rfl⟩ := List.mem_map.1 hy
        have := gge _ (mem_times (List.mem_filter.1 hx).1)
        exact this
      · simp at ht
        rw [ht]
        exact le_of_lt h.lt
    · exact hTg
  · intro hf
    rw [him] at hf
    exact absurd hf (by decide)
  · intro hk hm
    rw [hgot, List.mem_append] at hm
    have hm : s.start ∈ (before c s).times := by
      rcases hm with hm | hm
      · exact hm
      · simp only [List.mem_singleton] at hm
        exact absurd hm (ne_of_lt h.lt)
    show s.start ∈ (finRepeat c i s).tgt.times
    simp only [finRepeat, hk]
    by_cases hin : s.start ∈ (s.tgt.trimAfter s.start).times
    · simp [hin]
    · obtain ⟨x, hx, e⟩ := List.mem_map.1 hm
      rw [times_append, times_append, List.mem_append, List.mem_append]
      refine Or.inl (Or.inr ?_)
      refine List.mem_map.2 ⟨(x.1, ⟨s.nR, c.f s.nS s.nR x.2.v⟩), List.mem_map.2 ⟨x, List.mem_filter.2 ⟨hx, ?_⟩, rfl⟩, e⟩
      rw [e]
      simpa using hin

theorem inv_step {c : Config α} {i : Input α} {s : State α} (hi : Inv c s) (hv : i.Valid s.start s.stop) :
    ∃ s', step c i s = some s' ∧ Inv c s' ∧ s'.nS = newS i s.nS ∧ s'.nR = newR i s.nR ∧
      (s'.start, s'.stop) = (if c.implicit = true ∧ i.conv = false then (s.start, s.stop) else (s.stop, i.next)) := by
  obtain ⟨h, h1, h2, h3, h4⟩ := mid hi hv
  refine ⟨_, step_eq hi hv, ?_⟩
  generalize stepRemesh c i (stepSubs c i s) = m at *
  cases hc : i.complete c
  · have hh : c.implicit = true ∧ i.conv = false := by
      simpa [Input.complete] using hc
    simp only [Bool.false_eq_true, if_false]
    refine ⟨inv_repeat h hh.1, h3, h4, ?_⟩
    rw [if_pos hh, ← h1, ← h2]
    rfl
  · have hh : ¬(c.implicit = true ∧ i.conv = false) := by
      rintro ⟨a, b⟩
      simp [Input.complete, a, b] at hc
    simp only [if_true]
    refine ⟨inv_complete (by rw [h2]; exact hv.next), h3, h4, ?_⟩
    rw [if_neg hh, ← h2]
    rfl

theorem inv_start (c : Config α) (nS nR : ℕ) {b : ℚ} (hb : 0 < b) : Inv c (start c nS nR b) := by
  refine ⟨hb, ⟨?_, ?_, ?_, ?_⟩, ?_, ?_, ?_, ?_, ?_, ?_, ?_, ?_, ?_, ?_, ?_⟩ <;>
    cases hk : c.kind <;> simp [start, hk, le_of_lt hb, State.sent]
  all_goals intro _; exact ⟨[(0, _)], Or.inr rfl, Or.inl rfl⟩

theorem inv_run {c : Config α} : ∀ (is : List (Input α)) {s : State α}, Inv c s →
    ValidAll c.implicit is s.start s.stop → ∃ s', run c is s = some s' ∧ Inv c s'
  | [], s, hi, _ => ⟨s, rfl, hi⟩
  | i :: is, s, hi, hv => by
    obtain ⟨s', e, hi', _, _, hw⟩ := inv_step hi hv.1
    obtain ⟨s'', e', hi''⟩ := inv_run is hi' (by
      have h2 := hv.2
      split_ifs at hw h2 with hcc
      · rw [(Prod.mk.inj hw).1, (Prod.mk.inj hw).2]; exact h2
      · rw [(Prod.mk.inj hw).1, (Prod.mk.inj hw).2]; exact h2)
    exact ⟨s'', by simp [run, e, e'], hi''⟩

theorem readable_nodup {c : Config α} {s : State α} (h : Inv c s) : (s.readable c).times.Nodup := by
  cases hk : c.kind <;> simp only [State.readable, hk]
  · exact h.gotNodup
  · exact h.tgtNodup
  · exact h.gotNodup

theorem valueAt_mem {w : Wave α} {t : ℚ} {x : Sample α} (hn : w.times.Nodup) (h : (t, x) ∈ w) :
    valueAt w t = some x := by
  have hf : ∀ (w : Wave α), w.times.Nodup → (t, x) ∈ w → (w.find? fun y => y.1 = t).map Prod.snd = some x := by
    intro w
    induction w with
    | nil => intro _ h; simp at h
    | cons y w ih =>
      intro hn h
      rw [times_cons, List.nodup_cons] at hn
      rw [List.mem_cons] at h
      rcases h with h | h
      · rw [← h]; simp
      · have : y.1 ≠ t := fun e => hn.1 (e ▸ mem_times h)
        rw [List.find?_cons_of_neg (by simpa using this)]
        exact ih hn.2 h
  match w, hn, h with
  | [], _, h => simp at h
  | [y], _, h => simp at h; simp [valueAt, ← h]
  | y :: z :: w, hn, h => exact hf _ hn h

theorem readable_complete (c : Config α) (i : Input α) (s : State α) :
    (finComplete c i s).readable c = [(s.stop, seen c s.nS s.nR i.v)] := by
  cases hk : c.kind <;> simp [State.readable, hk, finComplete, seen, lastSent]

theorem readable_repeat_end (c : Config α) (i : Input α) (s : State α) :
    (s.stop, seen c s.nS s.nR i.v) ∈ (finRepeat c i s).readable c := by
  cases hk : c.kind <;> simp [State.readable, hk, finRepeat, seen, lastSent]

theorem seen_pre (c : Config α) (i : Input α) (nS nR : ℕ) (b : ℚ) :
    (written c i b).map (fun x => (x.1, seen c nS nR x.2)) =
      ((if c.substeps then i.subs else []).map fun x => (x.1, seen c nS nR x.2)) ++ [(b, seen c nS nR i.v)] := by
  simp [written]

/-- A repeated window without remeshing. -/
theorem readable_repeat {c : Config α} {i : Input α} {s : State α} (hi : Inv c s) (hv : i.Valid s.start s.stop)
    (hS : i.chS = none) (hR : i.chR = none) :
    (finRepeat c i (stepRemesh c i (stepSubs c i s))).readable c =
      (s.readable c).trimAfter s.start ++ (written c i s.stop).map fun x => (x.1, seen c s.nS s.nR x.2) := by
  have hm := (mid hi hv).1
  have e : stepRemesh c i (stepSubs c i s) = { s with src := s.src ++ pre c i s.nS } := by
    rw [stepSubs_eq hi hv]
    simp [stepRemesh, resetReader, resetSender, hS, hR, Input.remeshed]
  rw [e] at hm ⊢
  rw [seen_pre]
  have hsrc : s.src.trimAfter s.start = s.src := trimAfter_all fun t ht => le_of_eq (head_mem hi.src ht)
  have hmap : s.mapped.trimAfter s.start = s.mapped := trimAfter_all fun t ht => le_of_eq (head_mem hi.mapped ht)
  -- what the reader has before the end
  have hbef : before c { s with src := s.src ++ pre c i s.nS } = s.got.trimAfter s.start ++
      (if c.substeps then i.subs else []).map fun x => (x.1, match c.kind with
        | .write => (⟨s.nR, c.f s.nS s.nR x.2⟩ : Sample α) | _ => ⟨s.nS, x.2⟩) := by
    unfold before
    cases hc : c.substeps
    · simp only [Bool.false_eq_true, if_false, List.map_nil, List.append_nil]
      apply List.filter_congr
      intro x hx
      have h1 := hi.gotGe _ (mem_times hx)
      obtain ⟨g, hg, hgg⟩ := hi.gotEnd hc
      have hlt := hi.lt
      by_cases hxs : x.1 = s.stop
      · simp [hxs, hlt]
      · have : x ∈ g := by
          rcases hgg with e | ⟨y, e⟩
          · exact e ▸ hx
          · rw [e, List.mem_append] at hx
            rcases hx with hx | hx
            · exact hx
            · simp at hx
              rw [hx] at hxs
              exact absurd rfl hxs
        have := head_mem hg (mem_times this)
        simp [this, ne_of_lt hlt]
    · simp only [if_true]
      have hsame := hi.same hc
      cases hk : c.kind
      · simp only [State.sent, hk, hsrc] at hsame
        simp [base, hk, hsame, pre, hc]
      · simp only [State.sent, hk, hsrc] at hsame
        simp [base, hk, hsame, pre, hc]
      · simp only [State.sent, hk, hmap] at hsame
        simp only [base, hk, hsame, List.filter_append]
        congr 1
        have h1 : (s.src.filter fun x => decide (s.start < x.1)) = [] := by
          rw [List.filter_eq_nil_iff]
          intro x hx
          have := head_mem hi.src (mem_times hx)
          simp [this]
        have h2 : ((pre c i s.nS).filter fun x => decide (s.start < x.1)) = pre c i s.nS := by
          rw [List.filter_eq_self]
          intro x hx
          simpa using (pre_gt hv s.nS _ (mem_times hx)).1
        rw [h1, h2]
        simp [pre, hc]
  cases hk : c.kind
  · simp [State.readable, hk, finRepeat, hbef, seen, lastSent]
  · simp only [State.readable, hk, finRepeat, hbef, seen]
    have hT := trimAfter_head hi.tgtNodup hi.tgtGe
    have hin : s.start ∈ s.got.times → s.start ∈ (s.tgt.trimAfter s.start).times := fun h => by
      obtain ⟨x, hx, e⟩ := List.mem_map.1 (hi.tgtHead hk h)
      exact List.mem_map.2 ⟨x, List.mem_filter.2 ⟨hx, by simp [e]⟩, e⟩
    generalize s.tgt.trimAfter s.start = T at *
    have h1 : ((s.got.trimAfter s.start).filter fun x => decide (x.1 ∉ T.times)) = [] := by
      rw [List.filter_eq_nil_iff]
      intro x hx
      have hm1 := List.mem_filter.1 hx
      have : x.1 = s.start := le_antisymm (by simpa using hm1.2) (hi.gotGe _ (mem_times hm1.1))
      have := hin (this ▸ mem_times hm1.1)
      simp [*]
    have h2 : (((if c.substeps then i.subs else []).map fun x => (x.1, (⟨s.nS, x.2⟩ : Sample α))).filter
        fun x => decide (x.1 ∉ T.times)) = (if c.substeps then i.subs else []).map fun x => (x.1, (⟨s.nS, x.2⟩ : Sample α)) := by
      rw [List.filter_eq_self]
      intro x hx
      have hgt := (pre_gt hv (c := c) s.nS x.1 (mem_times hx)).1
      have : x.1 ∉ T.times := fun hm => by
        rw [head_mem hT hm] at hgt
        exact lt_irrefl _ hgt
      simpa using this
    rw [List.filter_append, h1, h2]
    simp
  · simp [State.readable, hk, finRepeat, hbef, seen, lastSent]

end Verif.Remesh
