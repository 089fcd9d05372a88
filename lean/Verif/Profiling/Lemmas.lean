import Verif.Profiling.Spec
import Mathlib.Data.List.Lemmas

/-!
# Profiling: lemmas (C130)
-/

set_option autoImplicit false

namespace Verif.Profiling

theorem accepting_iff (m : Mode) (g : Group) : accepting m g = decide (g.level ≤ m.level) := by
  cases m <;> cases g <;> rfl

theorem readAll_append (s : Reader) (a b : List Entry) :
    s.readAll (a ++ b) = (s.readAll a).bind fun s => s.readAll b := by
  induction a generalizing s with
  | nil => rfl
  | cons e es ih =>
    simp only [List.cons_append, Reader.readAll]
    cases s.read e with
    | none => rfl
    | some s' => simpa using ih s'

/-- The registry while a file is open, and what it has been told so far -/
structure Good (m : Mode) (par sy : Bool) (cl : List (List Entry)) (r : Reg) (out : List Rec) : Prop where
  mode : r.mode = m
  on : m ≠ .off
  isOpen : r.isOpen = true
  running : r.running = true
  init : r.initialized = true
  fin : r.finalized = false
  par : r.parallel = par
  sync : r.sync = sy
  closed : r.closed = cl
  gid : r.dict[r.globalId]? = some "_GLOBAL"
  read : Reader.start.readAll (r.file ++ r.queue) = some ⟨fun i => r.dict[i]?, out⟩

/-- The names stay the same, others may follow. -/
def Ext (r r' : Reg) : Prop := ∃ l, r'.dict = r.dict ++ l

theorem Ext.refl (r : Reg) : Ext r r := ⟨[], by simp⟩

theorem Ext.trans {r r' r'' : Reg} (h : Ext r r') (h' : Ext r' r'') : Ext r r'' := by
  obtain ⟨l, hl⟩ := h
  obtain ⟨l', hl'⟩ := h'
  exact ⟨l ++ l', by rw [hl', hl, List.append_assoc]⟩

theorem Ext.get {r r' : Reg} (h : Ext r r') {i : ℕ} {n : String} (hi : r.dict[i]? = some n) :
    r'.dict[i]? = some n := by
  obtain ⟨l, hl⟩ := h
  rw [hl, List.getElem?_append_left (List.getElem?_eq_some_iff.1 hi).1]
  exact hi

theorem flush_dict (r : Reg) : (flush r).dict = r.dict := by
  unfold flush
  split_ifs <;> rfl

theorem put_dict (e : Entry) (r : Reg) : (put e r).dict = r.dict := by
  unfold put
  dsimp only
  split_ifs
  · rw [flush_dict]; rfl
  · rfl

theorem ext_of_eq {r r' : Reg} (h : r'.dict = r.dict) : Ext r r' := ⟨[], by simp [h]⟩

variable {m : Mode} {par sy : Bool} {cl : List (List Entry)} {r : Reg} {out : List Rec}

theorem good_flush (h : Good m par sy cl r out) : Good m par sy cl (flush r) out := by
  unfold flush
  split_ifs with h1 h2
  · exact h
  · refine ⟨h.mode, h.on, h.isOpen, h.running, h.init, h.fin, h.par, h.sync, h.closed, h.gid, ?_⟩
    simpa using h.read
  · exact absurd h.isOpen h2

theorem good_push {e : Entry} {out' : List Rec} (h : Good m par sy cl r out)
    (he : Reader.read ⟨fun i => r.dict[i]?, out⟩ e = some ⟨fun i => r.dict[i]?, out'⟩) :
    Good m par sy cl (push e r) out' := by
  refine ⟨h.mode, h.on, h.isOpen, h.running, h.init, h.fin, h.par, h.sync, h.closed, h.gid, ?_⟩
  change Reader.start.readAll (r.file ++ (r.queue ++ [e])) = _
  rw [← List.append_assoc, readAll_append, h.read]
  change (Reader.read _ e).bind _ = _
  rw [he]
  rfl

theorem good_put {e : Entry} {out' : List Rec} (h : Good m par sy cl r out)
    (he : Reader.read ⟨fun i => r.dict[i]?, out⟩ e = some ⟨fun i => r.dict[i]?, out'⟩) :
    Good m par sy cl (put e r) out' := by
  unfold put
  dsimp only
  split_ifs
  · exact good_flush (good_push h he)
  · exact good_push h he

theorem good_now {clk : ℕ → ℤ} (h : Good m par sy cl r out) : Good m par sy cl (now clk r).2 out :=
  ⟨h.mode, h.on, h.isOpen, h.running, h.init, h.fin, h.par, h.sync, h.closed, h.gid, h.read⟩

theorem good_name (n : String) (h : Good m par sy cl r out) :
    Good m par sy cl (nameToID n r).2 out ∧ (nameToID n r).2.dict[(nameToID n r).1]? = some n
      ∧ Ext r (nameToID n r).2 := by
  unfold nameToID
  split_ifs with hn
  · refine ⟨h, ?_, Ext.refl _⟩
    change r.dict[r.dict.idxOf n]? = some n
    exact List.getElem?_idxOf hn
  · have hx : Ext r (push (.name n r.dict.length) { r with dict := r.dict ++ [n] }) := ⟨[n], rfl⟩
    refine ⟨?_, ?_, hx⟩
    · refine ⟨h.mode, h.on, h.isOpen, h.running, h.init, h.fin, h.par, h.sync, h.closed, hx.get h.gid, ?_⟩
      change Reader.start.readAll (r.file ++ (r.queue ++ [.name n r.dict.length])) = _
      rw [← List.append_assoc, readAll_append, h.read]
      have hnone : r.dict[r.dict.length]? = none := List.getElem?_eq_none le_rfl
      have e1 : Reader.read ⟨fun i => r.dict[i]?, out⟩ (.name n r.dict.length)
          = some ⟨fun j => if j = r.dict.length then some n else r.dict[j]?, out⟩ := by
        simp only [Reader.read, hnone]
      change (Reader.read _ (.name n r.dict.length)).bind _ = _
      rw [e1]
      change some _ = some _
      congr 2
      funext j
      change _ = (r.dict ++ [n])[j]?
      by_cases hj : j = r.dict.length
      · subst hj
        simp
      · rw [if_neg hj]
        rcases Nat.lt_or_gt_of_ne hj with hlt | hgt
        · rw [List.getElem?_append_left hlt]
        · rw [List.getElem?_eq_none (by omega), List.getElem?_eq_none (by simp; omega)]
    · change (r.dict ++ [n])[r.dict.length]? = some n
      simp

/-- An event object of the section `n` -/
structure Is (par : Bool) (r : Reg) (e : Event) (n : String) (g : Group) (s : Bool) : Prop where
  eid : r.dict[e.eid]? = some n
  group : e.group = g
  synchronize : e.synchronize = s
  sid : s = true → par = true → ∃ i, e.sid = some i ∧ r.dict[i]? = some (n ++ ".sync")

theorem Is.ext {r' : Reg} {e : Event} {n : String} {g : Group} {s : Bool} (h : Is par r e n g s) (hx : Ext r r') :
    Is par r' e n g s :=
  ⟨hx.get h.eid, h.group, h.synchronize, fun h1 h2 => by
    obtain ⟨i, hi, hd⟩ := h.sid h1 h2
    exact ⟨i, hi, hx.get hd⟩⟩

theorem Is.run {e : Event} {n : String} {g : Group} {s b : Bool} (h : Is par r e n g s) :
    Is par r { e with running := b } n g s :=
  ⟨h.eid, h.group, h.synchronize, h.sid⟩

theorem start_fst (clk : ℕ → ℤ) (e : Event) (r : Reg) : (e.start clk r).1 = { e with running := true } := by
  unfold Event.start
  dsimp only
  split_ifs
  · rfl
  · split <;> rfl
  · rfl

theorem start_dict (clk : ℕ → ℤ) (e : Event) (r : Reg) : (e.start clk r).2.dict = r.dict := by
  unfold Event.start
  dsimp only
  split_ifs
  · rfl
  · split
    · rfl
    · rw [put_dict]; rfl
  · rw [put_dict]; rfl

theorem stop_fst (clk : ℕ → ℤ) (e : Event) (r : Reg) : (e.stop clk r).1 = { e with running := false } := rfl

theorem stop_dict (clk : ℕ → ℤ) (e : Event) (r : Reg) : (e.stop clk r).2.dict = r.dict := by
  unfold Event.stop
  dsimp only
  split_ifs
  · rw [put_dict]; rfl
  · rfl

theorem read_start {d : ℕ → Option String} {i : ℕ} {n : String} (t : ℤ) (h : d i = some n) :
    Reader.read ⟨d, out⟩ (.start i t) = some ⟨d, out ++ [.open n]⟩ := by
  simp [Reader.read, h]

theorem read_stop {d : ℕ → Option String} {i : ℕ} {n : String} (t : ℤ) (h : d i = some n) :
    Reader.read ⟨d, out⟩ (.stop i t) = some ⟨d, out ++ [.close n]⟩ := by
  simp [Reader.read, h]

theorem read_data {d : ℕ → Option String} {i k : ℕ} {n key : String} (t v : ℤ) (h : d i = some n) (hk : d k = some key) :
    Reader.read ⟨d, out⟩ (.data i t k v) = some ⟨d, out ++ [.data n key v]⟩ := by
  simp [Reader.read, h, hk]

theorem good_start (clk : ℕ → ℤ) {e : Event} {n : String} {g : Group} {s : Bool} (h : Good m par sy cl r out)
    (he : Is par r e n g s) :
    Good m par sy cl (e.start clk r).2 (out ++ if g.level ≤ m.level then enter (par && sy) n s else []) := by
  unfold Event.start
  dsimp only
  rw [h.mode, he.group, accepting_iff]
  by_cases hg : g.level ≤ m.level
  · rw [if_neg (by simp [hg]), if_pos hg, he.synchronize, h.par, h.sync]
    unfold enter
    by_cases hs : (s && par && sy) = true
    · rw [if_pos hs]
      have hs' : s = true ∧ par = true ∧ sy = true := by
        simp only [Bool.and_eq_true] at hs
        exact ⟨hs.1.1, hs.1.2, hs.2⟩
      rw [if_pos (by simp [hs'.1, hs'.2.1, hs'.2.2])]
      obtain ⟨i, hi, hd⟩ := he.sid hs'.1 hs'.2.1
      rw [hi]
      dsimp only
      have g1 : Good m par sy cl (putCritical (.start i (now clk r).1) (now clk r).2)
          (out ++ [.open (n ++ ".sync")]) :=
        good_push (good_now h) (read_start _ hd)
      obtain ⟨r1, hr1⟩ : ∃ r1, putCritical (.start i (now clk r).1) (now clk r).2 = r1 := ⟨_, rfl⟩
      have d1 : r1.dict = r.dict := by rw [← hr1]; rfl
      rw [hr1] at g1 ⊢
      have g2 : Good m par sy cl (putCritical (.stop i (now clk r1).1) (now clk r1).2)
          (out ++ [.open (n ++ ".sync")] ++ [.close (n ++ ".sync")]) :=
        good_push (good_now g1) (read_stop _ (by change r1.dict[i]? = _; rw [d1]; exact hd))
      have g3 := good_put (e := .start e.eid (now clk r1).1)
        (out' := out ++ [.open (n ++ ".sync")] ++ [.close (n ++ ".sync")] ++ [.open n]) g2
        (read_start _ (by change r1.dict[e.eid]? = _; rw [d1]; exact he.eid))
      simpa using g3
    · rw [if_neg hs]
      have hs' : ¬ (s && (par && sy)) = true := by
        simpa [Bool.and_assoc] using hs
      rw [if_neg hs']
      exact good_put (good_now h) (read_start _ he.eid)
  · rw [if_pos (by simp [hg]), if_neg hg, List.append_nil]
    exact h

theorem good_create (clk : ℕ → ℤ) (n : String) (g : Group) (s : Bool) (h : Good m par sy cl r out) :
    Good m par sy cl (Event.create clk n g s r).2 (out ++ if g.level ≤ m.level then enter (par && sy) n s else [])
      ∧ Is par (Event.create clk n g s r).2 (Event.create clk n g s r).1 n g s
      ∧ (Event.create clk n g s r).1.running = true
      ∧ Ext r (Event.create clk n g s r).2 := by
  obtain ⟨h1, hid, hx⟩ := good_name n h
  unfold Event.create
  dsimp only
  by_cases hs : (s && (nameToID n r).2.parallel) = true
  · rw [if_pos hs]
    obtain ⟨h2, hid2, hx2⟩ := good_name (n ++ ".sync") h1
    have his : Is par (nameToID (n ++ ".sync") (nameToID n r).2).2
        { eid := (nameToID n r).1, sid := some (nameToID (n ++ ".sync") (nameToID n r).2).1, running := false,
          group := g, synchronize := s } n g s :=
      ⟨hx2.get hid, rfl, rfl, fun _ _ => ⟨_, rfl, hid2⟩⟩
    refine ⟨good_start clk h2 his, ?_, ?_, ?_⟩
    · rw [start_fst]
      exact (his.ext (ext_of_eq (start_dict _ _ _))).run
    · rw [start_fst]
    · exact (hx.trans hx2).trans (ext_of_eq (start_dict _ _ _))
  · rw [if_neg hs]
    have his : Is par (nameToID n r).2
        { eid := (nameToID n r).1, sid := none, running := false, group := g, synchronize := s } n g s := by
      refine ⟨hid, rfl, rfl, fun h3 h4 => absurd ?_ hs⟩
      rw [h1.par, h3, h4]
      rfl
    refine ⟨good_start clk h1 his, ?_, ?_, ?_⟩
    · rw [start_fst]
      exact (his.ext (ext_of_eq (start_dict _ _ _))).run
    · rw [start_fst]
    · exact hx.trans (ext_of_eq (start_dict _ _ _))

theorem good_stop (clk : ℕ → ℤ) {e : Event} {n : String} {g : Group} {s : Bool} (h : Good m par sy cl r out)
    (he : Is par r e n g s) :
    Good m par sy cl (e.stop clk r).2 (out ++ if g.level ≤ m.level then [.close n] else []) := by
  unfold Event.stop
  dsimp only
  rw [show (now clk r).2.mode = m from h.mode, he.group, accepting_iff]
  by_cases hg : g.level ≤ m.level
  · rw [if_pos (by simp [hg]), if_pos hg]
    exact good_put (good_now h) (read_stop _ he.eid)
  · rw [if_neg (by simp [hg]), if_neg hg, List.append_nil]
    exact good_now h

theorem good_addData (clk : ℕ → ℤ) {e : Event} {n : String} {g : Group} {s : Bool} (kv : String × ℤ)
    (h : Good m par sy cl r out) (he : Is par r e n g s) :
    Good m par sy cl (e.addData clk kv r) (out ++ if g.level ≤ m.level then [.data n kv.1 kv.2] else [])
      ∧ Ext r (e.addData clk kv r) := by
  unfold Event.addData
  dsimp only
  rw [show (now clk r).2.mode = m from h.mode, he.group, accepting_iff]
  by_cases hg : g.level ≤ m.level
  · rw [if_pos (by simp [hg]), if_pos hg]
    obtain ⟨h1, hid, hx⟩ := good_name kv.1 (good_now (clk := clk) h)
    refine ⟨good_put h1 (read_data _ _ (hx.get he.eid) hid), ?_⟩
    obtain ⟨l, hl⟩ := hx
    exact ⟨l, by rw [put_dict, hl]; rfl⟩
  · rw [if_neg (by simp [hg]), if_neg hg, List.append_nil]
    exact ⟨good_now h, ⟨[], by simp [now]⟩⟩

theorem good_foldData (clk : ℕ → ℤ) {e : Event} {n : String} {g : Group} {s : Bool} (data : List (String × ℤ))
    {r : Reg} {out : List Rec} (h : Good m par sy cl r out) (he : Is par r e n g s) :
    Good m par sy cl (data.foldl (fun r kv => e.addData clk kv r) r)
        (out ++ if g.level ≤ m.level then data.map (fun kv => .data n kv.1 kv.2) else [])
      ∧ Ext r (data.foldl (fun r kv => e.addData clk kv r) r) := by
  induction data generalizing r out with
  | nil => simpa using ⟨h, Ext.refl r⟩
  | cons kv data ih =>
    obtain ⟨h1, hx⟩ := good_addData clk kv h he
    obtain ⟨h2, hx2⟩ := ih h1 (he.ext hx)
    refine ⟨?_, hx.trans hx2⟩
    simp only [List.foldl_cons]
    by_cases hg : g.level ≤ m.level
    · simpa [hg] using h2
    · simpa [hg] using h2

theorem good_forest (clk : ℕ → ℤ) (f : Forest) {r : Reg} {out : List Rec} (h : Good m par sy cl r out) :
    Good m par sy cl (runForest clk f r) (out ++ shown m (par && sy) f) ∧ Ext r (runForest clk f r) := by
  induction f generalizing r out with
  | nil => simpa [runForest, shown] using ⟨h, Ext.refl r⟩
  | node n g s data inner rest ih1 ih2 =>
    unfold runForest
    dsimp only
    obtain ⟨h1, he, hr, hx1⟩ := good_create clk n g s h
    obtain ⟨h2, hx2⟩ := good_foldData clk data h1 he
    obtain ⟨h3, hx3⟩ := ih1 h2
    have h4 := good_stop clk h3 (he.ext (hx2.trans hx3))
    obtain ⟨h5, hx5⟩ := ih2 h4
    refine ⟨?_, hx1.trans (hx2.trans (hx3.trans ((ext_of_eq (stop_dict _ _ _)).trans hx5)))⟩
    unfold shown
    by_cases hg : g.level ≤ m.level
    · simpa [hg, List.append_assoc] using h5
    · simpa [hg, List.append_assoc] using h5

end Verif.Profiling
