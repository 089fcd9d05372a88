import Mathlib.Data.List.Basic
import Mathlib.Logic.Function.Basic
import Mathlib.Logic.Relation

/-!
# Publication of connection information in files (C68)

Model of `ConnectionInfoWriter::write`, `~ConnectionInfoWriter` and `ConnectionInfoReader::read` (`/repo/src/com/ConnectionInfoPublisher.cpp:52-156`) for one connection file,
one writer and any number of readers, interleaved in any way. The file system: creating, appending, renaming and removing a file are atomic with respect to other processes, and a
reader that has opened a file reads the contents of that file. A crash of the writer loses what is not yet written. Crashes of the operating system are not modelled.
-/

set_option autoImplicit false

namespace Verif.Com.Info

abbrev Text := List Char

/-- Progress of the writer. -/
inductive Writer where
  | start
  /-- after `!fs::exists(path)`, line 120 -/
  | checkedPath
  /-- after `!fs::exists(tmp)`, line 121 -/
  | checkedTmp
  /-- the stream is open, the text is what has not reached the file yet -/
  | writing (rest : Text)
  /-- after the scope of the stream, line 138 -/
  | closed
  /-- after `fs::rename`, line 145 -/
  | published
  /-- after the destructor -/
  | removed
  | failed
  | crashed
deriving DecidableEq

/-- Progress of a reader. -/
inductive Reader where
  /-- the loop `while (!fs::exists(path))`, line 58 -/
  | waiting
  /-- the file existed -/
  | found
  /-- the first attempt to open it failed, line 66 -/
  | retry
  /-- the file is open -/
  | opened (contents : Text)
  /-- the file could not be opened, line 73 -/
  | missing
  /-- the first line was empty, line 78 -/
  | empty
  /-- the result -/
  | got (address : Text)
deriving DecidableEq

/-- The state of all processes and of the two files. -/
structure State (ι : Type) where
  path : Option Text
  tmp : Option Text
  writer : Writer
  reader : ι → Reader

/-- The contents of the file, lines 134-136: the information is followed by a second line. -/
def contents (info comment : Text) : Text := info ++ '\n' :: comment

/-- `boost::algorithm::trim_right` -/
def trimRight (s : Text) : Text := (s.reverse.dropWhile Char.isWhitespace).reverse

/-- Lines 76-82: the first line without trailing whitespace. -/
def parse (c : Text) : Reader :=
  let line := c.takeWhile (· ≠ '\n')
  if line = [] then .empty else .got (trimRight line)

variable {ι : Type} [DecidableEq ι]

/-- The next step of the writer; writing happens in portions of any size. -/
inductive WriterStep (text : Text) : State ι → State ι → Prop where
  | checkPath (s : State ι) (h : s.writer = .start) : WriterStep text s { s with writer := if s.path = none then .checkedPath else .failed }
  | checkTmp (s : State ι) (h : s.writer = .checkedPath) : WriterStep text s { s with writer := if s.tmp = none then .checkedTmp else .failed }
  | create (s : State ι) (h : s.writer = .checkedTmp) : WriterStep text s { s with tmp := some [], writer := .writing text }
  | write (s : State ι) (a b c : Text) (h : s.writer = .writing (a ++ b)) (ht : s.tmp = some c) : WriterStep text s { s with tmp := some (c ++ a), writer := .writing b }
  | close (s : State ι) (h : s.writer = .writing []) : WriterStep text s { s with writer := .closed }
  | publish (s : State ι) (h : s.writer = .closed) (ht : s.tmp ≠ none) : WriterStep text s { s with path := s.tmp, tmp := none, writer := .published }
  | remove (s : State ι) (h : s.writer = .published) : WriterStep text s { s with path := none, writer := .removed }
  | crash (s : State ι) : WriterStep text s { s with writer := .crashed }

/-- The next step of reader `i`. -/
inductive ReaderStep (i : ι) : State ι → State ι → Prop where
  | find (s : State ι) (h : s.reader i = .waiting) (hp : s.path ≠ none) : ReaderStep i s { s with reader := Function.update s.reader i .found }
  | openFile (s : State ι) (c : Text) (h : s.reader i = .found ∨ s.reader i = .retry) (hp : s.path = some c) :
      ReaderStep i s { s with reader := Function.update s.reader i (.opened c) }
  | openFails (s : State ι) (h : s.reader i = .found) (hp : s.path = none) : ReaderStep i s { s with reader := Function.update s.reader i .retry }
  | giveUp (s : State ι) (h : s.reader i = .retry) (hp : s.path = none) : ReaderStep i s { s with reader := Function.update s.reader i .missing }
  | getLine (s : State ι) (c : Text) (h : s.reader i = .opened c) : ReaderStep i s { s with reader := Function.update s.reader i (parse c) }

/-- Any interleaving. -/
inductive Step (text : Text) : State ι → State ι → Prop where
  | writer {s s' : State ι} : WriterStep text s s' → Step text s s'
  | reader {s s' : State ι} (i : ι) : ReaderStep i s s' → Step text s s'

/-- A clean start: no files, everybody at the beginning. -/
def init (ι : Type) : State ι := ⟨none, none, .start, fun _ => .waiting⟩

def Reachable (text : Text) (s : State ι) : Prop := Relation.ReflTransGen (Step text) (init ι) s

/-! ## Invariant -/

/-- What has been written and what is still to be written. -/
def Written (text : Text) : Writer → Option Text → Prop
  | .writing rest, tmp => ∃ c, tmp = some c ∧ c ++ rest = text
  | .closed, tmp => tmp = some text
  | _, _ => True

def ReaderOk (text : Text) : Reader → Prop
  | .opened c => c = text
  | .empty => parse text = .empty
  | .got a => parse text = .got a
  | _ => True

structure Inv (text : Text) (s : State ι) : Prop where
  path : ∀ c, s.path = some c → c = text
  written : Written text s.writer s.tmp
  readers : ∀ i, ReaderOk text (s.reader i)
  /-- a file that was found disappears only by the destructor of the writer -/
  found : ∀ i, s.reader i ≠ .waiting → s.writer = .published ∨ s.writer = .removed ∨ s.writer = .crashed
  gone : ∀ i, s.reader i = .retry ∨ s.reader i = .missing → s.writer = .removed ∨ s.writer = .crashed
  present : s.path ≠ none → s.writer = .published ∨ s.writer = .crashed
  published : s.writer = .published → s.path ≠ none

theorem ReaderOk.parse (text : Text) : ReaderOk text (Info.parse text) := by
  by_cases h : text.takeWhile (· ≠ '\n') = []
  · have : Info.parse text = .empty := by simp only [Info.parse, h, if_true]
    rw [this]
    exact this
  · have : Info.parse text = .got (trimRight (text.takeWhile (· ≠ '\n'))) := by simp only [Info.parse, h, if_false]
    rw [this]
    exact this

theorem parse_ne (c : Text) : Info.parse c ≠ .waiting ∧ Info.parse c ≠ .retry ∧ Info.parse c ≠ .missing := by
  unfold Info.parse
  simp only []
  split <;> simp

omit [DecidableEq ι] in
theorem Inv.init (text : Text) : Inv text (Info.init ι) := by
  constructor <;> simp [Info.init, Written, ReaderOk]

omit [DecidableEq ι] in
theorem Inv.writerStep {text : Text} {s s' : State ι} (h : Inv text s) (hs : WriterStep text s s') : Inv text s' := by
  obtain ⟨h1, h2, h3, h4, h5, h6, h7⟩ := h
  cases hs with
  | checkPath hw =>
    refine ⟨h1, ?_, h3, fun i hi => ?_, fun i hi => ?_, fun hp => ?_, ?_⟩
    · dsimp only
      split <;> trivial
    · have := h4 i hi
      rw [hw] at this
      simp at this
    · have := h5 i hi
      rw [hw] at this
      simp at this
    · have := h6 hp
      rw [hw] at this
      simp at this
    · dsimp only
      split <;> simp
  | checkTmp hw =>
    refine ⟨h1, ?_, h3, fun i hi => ?_, fun i hi => ?_, fun hp => ?_, ?_⟩
    · dsimp only
      split <;> trivial
    · have := h4 i hi
      rw [hw] at this
      simp at this
    · have := h5 i hi
      rw [hw] at this
      simp at this
    · have := h6 hp
      rw [hw] at this
      simp at this
    · dsimp only
      split <;> simp
  | create hw =>
    refine ⟨h1, ⟨[], rfl, rfl⟩, h3, fun i hi => ?_, fun i hi => ?_, fun hp => ?_, by simp⟩
    · have := h4 i hi
      rw [hw] at this
      simp at this
    · have := h5 i hi
      rw [hw] at this
      simp at this
    · have := h6 hp
      rw [hw] at this
      simp at this
  | write a b c hw ht =>
    refine ⟨h1, ?_, h3, fun i hi => ?_, fun i hi => ?_, fun hp => ?_, by simp⟩
    · rw [hw, ht] at h2
      obtain ⟨c', hc, he⟩ := h2
      obtain rfl := Option.some.inj hc
      exact ⟨_, rfl, by rw [List.append_assoc, he]⟩
    · have := h4 i hi
      rw [hw] at this
      simp at this
    · have := h5 i hi
      rw [hw] at this
      simp at this
    · have := h6 hp
      rw [hw] at this
      simp at this
  | close hw =>
    refine ⟨h1, ?_, h3, fun i hi => ?_, fun i hi => ?_, fun hp => ?_, by simp⟩
    · rw [hw] at h2
      obtain ⟨c', hc, he⟩ := h2
      rw [List.append_nil] at he
      rw [he] at hc
      exact hc
    · have := h4 i hi
      rw [hw] at this
      simp at this
    · have := h5 i hi
      rw [hw] at this
      simp at this
    · have := h6 hp
      rw [hw] at this
      simp at this
  | publish hw ht =>
    refine ⟨?_, trivial, h3, fun i hi => ?_, fun i hi => ?_, fun hp => .inl rfl, fun _ => ht⟩
    · intro c hc
      rw [hw] at h2
      have h2' : s.tmp = some text := h2
      rw [h2'] at hc
      exact (Option.some.inj hc).symm
    · have := h4 i hi
      rw [hw] at this
      simp at this
    · have := h5 i hi
      rw [hw] at this
      simp at this
  | remove hw =>
    exact ⟨by simp, trivial, h3, fun i hi => .inr (.inl rfl), fun i hi => .inl rfl, by simp, by simp⟩
  | crash =>
    exact ⟨h1, trivial, h3, fun i hi => .inr (.inr rfl), fun i hi => .inr rfl, fun _ => .inr rfl, by simp⟩

theorem Inv.readerStep {text : Text} {s s' : State ι} {i : ι} (h : Inv text s) (hs : ReaderStep i s s') : Inv text s' := by
  obtain ⟨h1, h2, h3, h4, h5, h6, h7⟩ := h
  have key : ∀ x : Reader, ReaderOk text x → (x ≠ .waiting → s.writer = .published ∨ s.writer = .removed ∨ s.writer = .crashed) →
      (x = .retry ∨ x = .missing → s.writer = .removed ∨ s.writer = .crashed) → Inv text { s with reader := Function.update s.reader i x } := by
    intro x a b c
    refine ⟨h1, h2, fun j => ?_, fun j => ?_, fun j => ?_, h6, h7⟩
    · simp only [Function.update_apply]
      split
      · exact a
      · exact h3 j
    · simp only [Function.update_apply]
      split
      · exact b
      · exact h4 j
    · simp only [Function.update_apply]
      split
      · exact c
      · exact h5 j
  cases hs with
  | find hr hp =>
    refine key _ trivial (fun _ => ?_) (by simp)
    rcases h6 hp with h | h
    · exact .inl h
    · exact .inr (.inr h)
  | openFile c hr hp =>
    refine key _ (h1 c hp) (fun _ => ?_) (by simp)
    rcases h6 (by rw [hp]; simp) with h | h
    · exact .inl h
    · exact .inr (.inr h)
  | openFails hr hp =>
    have : s.writer = .removed ∨ s.writer = .crashed := by
      rcases h4 i (by rw [hr]; simp) with h | h | h
      · exact absurd hp (h7 h)
      · exact .inl h
      · exact .inr h
    exact key _ trivial (fun _ => .inr this) fun _ => this
  | giveUp hr hp =>
    have := h5 i (.inl hr)
    exact key _ trivial (fun _ => .inr this) fun _ => this
  | getLine c hr =>
    have hc : c = text := by have := h3 i; rw [hr] at this; exact this
    refine key _ (hc ▸ ReaderOk.parse text) (fun _ => h4 i (by rw [hr]; simp)) fun h => ?_
    obtain ⟨-, h8, h9⟩ := parse_ne c
    exact absurd h (not_or.2 ⟨h8, h9⟩)

theorem Reachable.inv {text : Text} {s : State ι} (h : Reachable text s) : Inv text s := by
  induction h with
  | refl => exact Inv.init text
  | tail _ hs ih =>
    cases hs with
    | writer hs => exact ih.writerStep hs
    | reader i hs => exact ih.readerStep hs

/-! ## Main theorems -/

/-- The information as a reader can use it: one line, not empty, without trailing whitespace. -/
structure Address (info : Text) : Prop where
  nonempty : info ≠ []
  line : '\n' ∉ info
  trimmed : trimRight info = info

theorem parse_contents {info : Text} (h : Address info) (comment : Text) : parse (contents info comment) = .got info := by
  have hl : (contents info comment).takeWhile (· ≠ '\n') = info := by
    unfold contents
    rw [List.takeWhile_append_of_pos]
    · simp
    · intro c hc
      simp only [ne_eq, decide_eq_true_eq]
      rintro rfl
      exact h.line hc
  simp only [parse, hl, h.nonempty, if_false, h.trimmed]

/-- In every state that can be reached by any interleaving, wherever the writer may have crashed: if the file exists, it has the complete contents, and so does every file that a reader
has opened; a reader gets exactly the published information and never an empty line; a reader fails only if the file disappeared after it had been found, because the writer has removed
it. -/
theorem C68_atomic (info comment : Text) (hi : Address info) (s : State ι) (h : Reachable (contents info comment) s) :
    (∀ c, s.path = some c → c = contents info comment) ∧
    ∀ i, (∀ c, s.reader i = .opened c → c = contents info comment) ∧ (∀ a, s.reader i = .got a → a = info) ∧ s.reader i ≠ .empty ∧
      (s.reader i = .missing → s.writer = .removed ∨ s.writer = .crashed) := by
  have hinv := h.inv
  refine ⟨hinv.path, fun i => ⟨fun c hc => ?_, fun a ha => ?_, fun he => ?_, fun hm => hinv.gone i (.inr hm)⟩⟩
  · have := hinv.readers i
    rw [hc] at this
    exact this
  · have := hinv.readers i
    rw [ha] at this
    have h2 : parse (contents info comment) = .got a := this
    rw [parse_contents hi] at h2
    exact (Reader.got.inj h2).symm
  · have := hinv.readers i
    rw [he] at this
    have h2 : parse (contents info comment) = .empty := this
    rw [parse_contents hi] at h2
    cases h2

/-- Once the file is published, a waiting reader can always finish with the information, also if the writer crashes then. -/
theorem C68_reader_succeeds (info comment : Text) (hi : Address info) (s : State ι) (h : Reachable (contents info comment) s) (hp : s.path ≠ none) (i : ι)
    (hr : s.reader i = .waiting) :
    ∃ s', Relation.ReflTransGen (ReaderStep i) s s' ∧ s'.reader i = .got info ∧ s'.path = s.path := by
  obtain ⟨c, hc⟩ := Option.ne_none_iff_exists'.1 hp
  have hc' := h.inv.path c hc
  refine ⟨_, ((Relation.ReflTransGen.single (ReaderStep.find s hr hp)).tail (ReaderStep.openFile _ c (.inl ?_) hc)).tail (ReaderStep.getLine _ c ?_), ?_, rfl⟩
  · simp
  · simp
  · simp [hc', parse_contents hi]

/-- A leftover of a previous run is not overwritten: the writer stops with an error. But a reader that comes first takes the old information. -/
theorem C68_leftover (old : Text) (ha : Address old) (text comment : Text) (i : ι) :
    let s : State ι := ⟨some (contents old comment), none, .start, fun _ => .waiting⟩
    (∀ s', WriterStep text s s' → s'.path = s.path ∧ (s'.writer = .failed ∨ s'.writer = .crashed)) ∧
    ∃ s', Relation.ReflTransGen (Step text) s s' ∧ s'.reader i = .got old := by
  intro s
  constructor
  · intro s' hs
    cases hs with
    | checkPath h => exact ⟨rfl, by simp [s]⟩
    | crash => exact ⟨rfl, .inr rfl⟩
    | _ => simp_all [s]
  · refine ⟨_, ((Relation.ReflTransGen.single (Step.reader i (ReaderStep.find s rfl (by simp [s])))).tail
      (Step.reader i (ReaderStep.openFile _ (contents old comment) (.inl ?_) rfl))).tail (Step.reader i (ReaderStep.getLine _ (contents old comment) ?_)), ?_⟩
    · simp
    · simp
    · simp [parse_contents ha]

/-- A writer that is not interrupted publishes the information. -/
theorem C68_writer_publishes (text : Text) : ∃ s : State ι, Reachable text s ∧ s.writer = .published ∧ s.path = some text := by
  have h1 : Step text (init ι) { init ι with writer := .checkedPath } := .writer (.checkPath _ rfl)
  have h2 : Step text { init ι with writer := .checkedPath } { init ι with writer := .checkedTmp } := .writer (.checkTmp _ rfl)
  have h3 : Step text { init ι with writer := .checkedTmp } { init ι with writer := .writing text, tmp := some [] } := .writer (.create _ rfl)
  have h4 : Step text { init ι with writer := .writing text, tmp := some [] } { init ι with writer := .writing [], tmp := some text } :=
    .writer (.write _ text [] [] (by simp) rfl)
  have h5 : Step text { init ι with writer := .writing [], tmp := some text } { init ι with writer := .closed, tmp := some text } := .writer (.close _ rfl)
  have h6 : Step text { init ι with writer := .closed, tmp := some text } { init ι with writer := .published, path := some text } := .writer (.publish _ rfl (by simp))
  exact ⟨_, (((((Relation.ReflTransGen.single h1).tail h2).tail h3).tail h4).tail h5).tail h6, rfl, rfl⟩

/-- Non-vacuity: a typical address. -/
example : Address "tag#host:1234".toList := by
  refine ⟨by decide, by decide, by decide⟩

end Verif.Com.Info
