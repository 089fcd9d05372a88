import Verif.Net.Rendezvous
import Mathlib.Data.Fin.SuccPred
import Mathlib.Data.List.FinRange

/-!
# One program talking to others, one after the other

Tools for collective operations inside a participant: the program of a centre `c` works on a list of others; with each of
them it has a conversation. With blocking sends.
-/

set_option autoImplicit false

namespace Verif

open Function (update)

variable {ι M α σ : Type} [DecidableEq ι]

/-- `Chat c r P Q P' Q'`: the programs `P` of `c` and `Q` of `r` communicate with each other (blocking sends) until they
are at `P'` and `Q'`. -/
inductive Chat (c r : ι) : Prog ι M α → Prog ι M α → Prog ι M α → Prog ι M α → Prop where
  | refl (P Q : Prog ι M α) : Chat c r P Q P Q
  | fwd {m : M} {k P' Q' : Prog ι M α} {k' : M → Prog ι M α} : Chat c r k (k' m) P' Q' → Chat c r (.send r m k) (.recv c k') P' Q'
  | bwd {m : M} {k' P' Q' : Prog ι M α} {k : M → Prog ι M α} : Chat c r (k m) k' P' Q' → Chat c r (.recv r k) (.send c m k') P' Q'

theorem Chat.steps {c r : ι} (hcr : c ≠ r) {P Q P' Q' : Prog ι M α} (h : Chat c r P Q P' Q') :
    ∀ {p : ι → Prog ι M α}, p c = P → p r = Q → ∃ n, RNet.Steps n p (update (update p c P') r Q') := by
  induction h with
  | refl P Q =>
    intro p hc hr
    refine ⟨0, ?_⟩
    have : update (update p c P) r Q = p := by
      rw [← hc, ← hr, Function.update_eq_self, Function.update_eq_self]
    rw [this]
    exact .refl _
  | @fwd m k P' Q' k' _ ih =>
    intro p hc hr
    obtain ⟨n, hn⟩ := ih (p := update (update p c k) r (k' m)) (by rw [Function.update_of_ne hcr, Function.update_self])
      (Function.update_self ..)
    refine ⟨n + 1, .head ⟨c, r, m, k, k', hc, hr, rfl⟩ ?_⟩
    rw [show update (update p c P') r Q' = update (update (update (update p c k) r (k' m)) c P') r Q' by
      funext i
      by_cases h1 : i = r
      · subst h1; simp
      · by_cases h2 : i = c
        · subst h2; simp [h1]
        · simp [h1, h2]]
    exact hn
  | @bwd m k' P' Q' k _ ih =>
    intro p hc hr
    obtain ⟨n, hn⟩ := ih (p := update (update p r k') c (k m)) (Function.update_self ..)
      (by rw [Function.update_of_ne hcr.symm, Function.update_self])
    refine ⟨n + 1, .head ⟨r, c, m, k', k, hr, hc, rfl⟩ ?_⟩
    rw [show update (update p c P') r Q' = update (update (update (update p r k') c (k m)) c P') r Q' by
      funext i
      by_cases h1 : i = r
      · subst h1; simp
      · by_cases h2 : i = c
        · subst h2; simp [h1]
        · simp [h1, h2]]
    exact hn

/-- The state of the loop when `r` is visited. -/
def visit (next : σ → ι → σ) (s : σ) (l : List ι) (r : ι) : σ := (l.takeWhile (· ≠ r)).foldl next s

theorem visit_head (next : σ → ι → σ) (s : σ) (l : List ι) (r : ι) : visit next s (r :: l) r = s := by
  simp [visit]

theorem visit_tail (next : σ → ι → σ) (s : σ) (l : List ι) {a r : ι} (h : a ≠ r) :
    visit next s (a :: l) r = visit next (next s a) l r := by
  simp [visit, h]

/-- A loop over distinct others: `P l s` is the program of the centre with the others `l` still to be visited, `q r` the
program of `r` before and `q' r s` after the conversation, where `s` is the state of the loop at that point. -/
theorem star_loop {c : ι} (next : σ → ι → σ) (P : List ι → σ → Prog ι M α) (q : ι → Prog ι M α) (q' : ι → σ → Prog ι M α)
    (h : ∀ r l s, Chat c r (P (r :: l) s) (q r) (P l (next s r)) (q' r s)) (l : List ι) (hl : l.Nodup) (hc : c ∉ l) (s : σ)
    (p : ι → Prog ι M α) (hp : p c = P l s) (hq : ∀ r ∈ l, p r = q r) :
    ∃ n, RNet.Steps n p fun i => if i = c then P [] (l.foldl next s) else if i ∈ l then q' i (visit next s l i) else p i := by
  induction l generalizing s p with
  | nil =>
    refine ⟨0, ?_⟩
    have : (fun i => if i = c then P [] (([] : List ι).foldl next s) else if i ∈ ([] : List ι) then q' i (visit next s [] i) else p i) = p := by
      funext i
      by_cases h : i = c
      · subst h; simp [hp]
      · simp [h]
    rw [this]
    exact .refl _
  | cons r l ih =>
    have hcr : c ≠ r := fun e => hc (by simp [e])
    obtain ⟨hr, hl'⟩ := List.nodup_cons.1 hl
    obtain ⟨n, hn⟩ := (h r l s).steps hcr hp (hq r (by simp))
    obtain ⟨n', hn'⟩ := ih hl' (fun hm => hc (List.mem_cons_of_mem _ hm)) (next s r)
      (update (update p c (P l (next s r))) r (q' r s)) (by rw [Function.update_of_ne hcr, Function.update_self]) (by
        intro x hx
        have h1 : x ≠ r := fun e => hr (e ▸ hx)
        have h2 : x ≠ c := fun e => hc (e ▸ List.mem_cons_of_mem _ hx)
        rw [Function.update_of_ne h1, Function.update_of_ne h2, hq x (List.mem_cons_of_mem _ hx)])
    refine ⟨n + n', hn.trans ?_⟩
    have : (fun i => if i = c then P [] ((r :: l).foldl next s) else if i ∈ r :: l then q' i (visit next s (r :: l) i) else p i) =
        fun i => if i = c then P [] (l.foldl next (next s r)) else if i ∈ l then q' i (visit next (next s r) l i) else
          update (update p c (P l (next s r))) r (q' r s) i := by
      funext i
      by_cases h1 : i = c
      · simp [h1]
      · simp only [h1, if_false]
        by_cases h2 : i = r
        · subst h2
          rw [if_pos (by simp), if_neg hr, Function.update_self, visit_head]
        · by_cases h3 : i ∈ l
          · rw [if_pos (List.mem_cons_of_mem _ h3), if_pos h3, visit_tail _ _ _ (Ne.symm h2)]
          · rw [if_neg (by simp [h2, h3]), if_neg h3, Function.update_of_ne h2, Function.update_of_ne h1]
    rw [this]
    exact hn'

/-- The same for others that are numbered by `e`. -/
theorem star_loop_emb {κ : Type} [DecidableEq κ] {c : ι} (e : κ → ι) (he : Function.Injective e) (next : σ → κ → σ) (P : List κ → σ → Prog ι M α)
    (q : κ → Prog ι M α) (q' : κ → σ → Prog ι M α) (l : List κ)
    (h : ∀ r ∈ l, ∀ l' s, Chat c (e r) (P (r :: l') s) (q r) (P l' (next s r)) (q' r s)) (hl : l.Nodup) (hc : ∀ r ∈ l, c ≠ e r) (s : σ)
    (p : ι → Prog ι M α) (hp : p c = P l s) (hq : ∀ r ∈ l, p (e r) = q r) :
    ∃ n p', RNet.Steps n p p' ∧ p' c = P [] (l.foldl next s) ∧ (∀ r ∈ l, p' (e r) = q' r (visit next s l r)) ∧
      ∀ i, i ≠ c → (∀ r ∈ l, i ≠ e r) → p' i = p i := by
  induction l generalizing s p with
  | nil => exact ⟨0, p, .refl _, hp, by simp, fun _ _ _ => rfl⟩
  | cons r l ih =>
    have hcr : c ≠ e r := hc r (by simp)
    obtain ⟨hr, hl'⟩ := List.nodup_cons.1 hl
    obtain ⟨n, hn⟩ := (h r (by simp) l s).steps hcr hp (hq r (by simp))
    obtain ⟨n', p', hn', h1, h2, h3⟩ := ih (fun r hr => h r (List.mem_cons_of_mem _ hr)) hl' (fun x hx => hc x (List.mem_cons_of_mem _ hx)) (next s r)
      (update (update p c (P l (next s r))) (e r) (q' r s)) (by rw [Function.update_of_ne hcr, Function.update_self]) (by
        intro x hx
        have h1 : e x ≠ e r := fun e' => hr (he e' ▸ hx)
        have h2 : e x ≠ c := (hc x (List.mem_cons_of_mem _ hx)).symm
        rw [Function.update_of_ne h1, Function.update_of_ne h2, hq x (List.mem_cons_of_mem _ hx)])
    refine ⟨n + n', p', hn.trans hn', h1, ?_, ?_⟩
    · intro x hx
      rcases List.mem_cons.1 hx with rfl | hx
      · rw [visit_head, h3 (e x) hcr.symm fun y hy => fun e' => hr (he e' ▸ hy), Function.update_self]
      · have : r ≠ x := fun e' => hr (e' ▸ hx)
        rw [visit_tail _ _ _ this, h2 x hx]
    · intro i hi hne
      rw [h3 i hi fun x hx => hne x (List.mem_cons_of_mem _ hx), Function.update_of_ne (hne r (by simp)), Function.update_of_ne hi]

/-- Receive from all others, combining the messages. -/
def gather (f : σ → ι → M → σ) (K : σ → Prog ι M α) : List ι → σ → Prog ι M α
  | [], s => K s
  | r :: l, s => .recv r fun m => gather f K l (f s r m)

/-- Send to all others. -/
def scatter (m : ι → M) (K : Prog ι M α) : List ι → Prog ι M α
  | [] => K
  | r :: l => .send r (m r) (scatter m K l)

/-- All others send to the centre, which combines what it gets. -/
theorem star_gather {c : ι} (f : σ → ι → M → σ) (K : σ → Prog ι M α) (m : ι → M) (q' : ι → Prog ι M α)
    (l : List ι) (hl : l.Nodup) (hc : c ∉ l) (s : σ) (p : ι → Prog ι M α) (hp : p c = gather f K l s)
    (hq : ∀ r ∈ l, p r = .send c (m r) (q' r)) :
    ∃ n, RNet.Steps n p fun i => if i = c then K (l.foldl (fun s r => f s r (m r)) s) else if i ∈ l then q' i else p i :=
  star_loop (fun s r => f s r (m r)) (gather f K) (fun r => .send c (m r) (q' r)) (fun r _ => q' r)
    (fun _ _ _ => .bwd (.refl _ _)) l hl hc s p hp hq

/-- The centre sends to all others. -/
theorem star_scatter {c : ι} (m : ι → M) (K : Prog ι M α) (q' : ι → M → Prog ι M α)
    (l : List ι) (hl : l.Nodup) (hc : c ∉ l) (p : ι → Prog ι M α) (hp : p c = scatter m K l)
    (hq : ∀ r ∈ l, p r = .recv c (q' r)) :
    ∃ n, RNet.Steps n p fun i => if i = c then K else if i ∈ l then q' i (m i) else p i := by
  obtain ⟨n, hn⟩ := star_loop (fun (_ : Unit) _ => ()) (fun l _ => scatter m K l) (fun r => .recv c (q' r)) (fun r _ => q' r (m r))
    (fun _ _ _ => .fwd (.refl _ _)) l hl hc () p hp hq
  exact ⟨n, hn⟩

/-- The secondary ranks of a participant with `n + 1` ranks, in the order of `allSecondaryRanks()`. -/
def secondaries (n : ℕ) : List (Fin (n + 1)) := (List.finRange n).map Fin.succ

theorem secondaries_nodup (n : ℕ) : (secondaries n).Nodup := (List.nodup_finRange n).map (Fin.succ_injective n)

theorem zero_notMem_secondaries (n : ℕ) : (0 : Fin (n + 1)) ∉ secondaries n := by
  unfold secondaries
  rw [List.mem_map]
  rintro ⟨a, -, h⟩
  exact Fin.succ_ne_zero a h

theorem mem_secondaries {n : ℕ} (r : Fin (n + 1)) : r ∈ secondaries n ↔ r ≠ 0 := by
  unfold secondaries
  rw [List.mem_map]
  constructor
  · rintro ⟨a, -, rfl⟩
    exact Fin.succ_ne_zero a
  · intro h
    obtain ⟨a, rfl⟩ := Fin.exists_succ_eq.2 h
    exact ⟨a, List.mem_finRange a, rfl⟩

end Verif
