import Verif.Bindings.Lemmas

/-! # The calls of the bindings (C131) -/

set_option autoImplicit false

namespace Verif.Bindings

variable {σ : Type}

theorem dims_lt {d : ℕ} (h : d ≤ 3) : ((d : ℤ)) < 2 ^ 31 := by
  have : (d : ℤ) ≤ 3 := by exact_mod_cast h
  linarith [show (3 : ℤ) < 2 ^ 31 by norm_num]

theorem cCall_expected {A : Api σ} {D : Dims} (h : Sound A D) {c : Call String} (hd : Documented D c)
    (hl : largest c < 2 ^ 31) (s : σ) : cCall A c (some s) = expected A c s := by
  cases c with
  | «initialize» | advance | getMeshDimensions | getDataDimensions | resetMesh | getMeshVertexSize | setMeshEdge
  | setMeshTriangle | setMeshQuad | setMeshTetrahedron =>
    simp only [cCall, andThen_ok (checked_ok s)]
    exact api_plain h s rfl rfl (by simp)
  | getMaxTimeStepSize | startProfilingSection | stopLastProfilingSection =>
    exact api_plain h s rfl rfl (by simp)
  | isCouplingOngoing | isTimeWindowComplete | requiresInitialData | requiresWritingCheckpoint
  | requiresReadingCheckpoint | requiresMeshConnectivityFor | requiresGradientDataFor =>
    simp only [cCall, andThen_ok (checked_ok s)]
    exact api_flag h s rfl rfl (by simp)
  | finalize =>
    simp only [cCall, andThen_ok (checked_ok s)]
    unfold expected andThen api
    cases hx : A.call s (meant (.finalize : Call String)) with
    | none =>
      have hx' : A.call s .finalize = none := hx
      simp only [hx']
    | some p =>
      obtain ⟨x, s'⟩ := p
      have hx' : A.call s .finalize = some (x, s') := hx
      have hn := h.flag s _ x s' hx
      simp only [hx', resetImpl, ret, if_true]
      cases x with
      | bool b => exact absurd (hn.2 ⟨b, rfl⟩) (by simp [isFlag, meant])
      | _ => rfl
  | setMeshVertex m p =>
    obtain ⟨d, hm, hp⟩ := hd
    have hs := dims_lt (h.meshSmall m d hm)
    simp only [cCall, andThen_ok (checked_ok s), andThen_ok (meshDims_ok h s hm),
      ulong_ok (Int.natCast_nonneg d) hs, andThen_ok (span_ok (some s) (show ((p.length : ℕ) : ℤ) = d by rw [hp]))]
    exact api_plain h s rfl rfl (by simp)
  | setMeshVertices m n p ids =>
    obtain ⟨d, hm, hp, rfl⟩ := hd
    have h1 : (p.length : ℤ) < 2 ^ 31 := lt_of_le_of_lt (le_max_left _ _) hl
    have h2 : (ids : ℤ) < 2 ^ 31 := lt_of_le_of_lt (le_max_right _ _) hl
    have hk : (d : ℤ) * ids = p.length := by rw [hp]; ring
    simp only [cCall, andThen_ok (checked_ok s), andThen_ok (meshDims_ok h s hm),
      andThen_ok (imul_ok (some s) hk (Int.natCast_nonneg _) h1), ulong_ok (Int.natCast_nonneg p.length) h1,
      andThen_ok (span_ok (some s) (rfl : (p.length : ℤ) = p.length)), ulong_ok (Int.natCast_nonneg ids) h2,
      andThen_ok (outSpan_ok (some s) (rfl : (ids : ℤ) = ids))]
    exact api_plain h s rfl rfl (by simp)
  | setMeshEdges m n v | setMeshTriangles m n v | setMeshQuads m n v | setMeshTetrahedra m n v =>
    have hd' : (v.length : ℤ) = n * _ := hd
    have hl' : n < 2 ^ 31 := hl
    have hn : 0 ≤ n := by omega
    simp only [cCall, andThen_ok (checked_ok s), ulong_ok hn hl',
      umul_ok hd'.symm (Int.natCast_nonneg _) (by omega),
      andThen_ok (span_ok (some s) (rfl : (v.length : ℤ) = v.length))]
    exact api_plain h s rfl rfl (by simp)
  | writeData m d n ids v =>
    obtain ⟨k, hk, rfl, hv⟩ := hd
    have h1 : (ids.length : ℤ) < 2 ^ 31 := lt_of_le_of_lt (le_max_left _ _) hl
    have h2 : (v.length : ℤ) < 2 ^ 31 := lt_of_le_of_lt (le_max_right _ _) hl
    simp only [cCall, andThen_ok (checked_ok s), andThen_ok (dataDims_ok h s hk),
      andThen_ok (imul_ok (some s) hv.symm (Int.natCast_nonneg _) h2),
      ulong_ok (Int.natCast_nonneg ids.length) h1, ulong_ok (Int.natCast_nonneg v.length) h2,
      andThen_ok (span_ok (some s) (rfl : (ids.length : ℤ) = ids.length)),
      andThen_ok (span_ok (some s) (rfl : (v.length : ℤ) = v.length))]
    exact api_plain h s rfl rfl (by simp)
  | readData m d n ids t v =>
    obtain ⟨k, hk, rfl, hv⟩ := hd
    have h1 : (ids.length : ℤ) < 2 ^ 31 := lt_of_le_of_lt (le_max_left _ _) hl
    have h2 : (v : ℤ) < 2 ^ 31 := lt_of_le_of_lt (le_max_right _ _) hl
    simp only [cCall, andThen_ok (checked_ok s), andThen_ok (dataDims_ok h s hk),
      andThen_ok (imul_ok (some s) hv.symm (Int.natCast_nonneg _) h2),
      ulong_ok (Int.natCast_nonneg ids.length) h1, ulong_ok (Int.natCast_nonneg v) h2,
      andThen_ok (span_ok (some s) (rfl : (ids.length : ℤ) = ids.length)),
      andThen_ok (outSpan_ok (some s) (rfl : (v : ℤ) = v))]
    exact api_plain h s rfl rfl (by simp)
  | writeAndMapData m d n x v =>
    obtain ⟨c, k, hc, hk, hx, hv⟩ := hd
    have h1 : (x.length : ℤ) < 2 ^ 31 := lt_of_le_of_lt (le_max_left _ _) hl
    have h2 : (v.length : ℤ) < 2 ^ 31 := lt_of_le_of_lt (le_max_right _ _) hl
    simp only [cCall, andThen_ok (checked_ok s), andThen_ok (dataDims_ok h s hk), andThen_ok (meshDims_ok h s hc),
      andThen_ok (imul_ok (some s) hv.symm (Int.natCast_nonneg _) h2),
      andThen_ok (imul_ok (some s) hx.symm (Int.natCast_nonneg _) h1),
      ulong_ok (Int.natCast_nonneg x.length) h1, ulong_ok (Int.natCast_nonneg v.length) h2,
      andThen_ok (span_ok (some s) (rfl : (x.length : ℤ) = x.length)),
      andThen_ok (span_ok (some s) (rfl : (v.length : ℤ) = v.length))]
    exact api_plain h s rfl rfl (by simp)
  | mapAndReadData m d n x t v =>
    obtain ⟨c, k, hc, hk, hx, hv⟩ := hd
    have h1 : (x.length : ℤ) < 2 ^ 31 := lt_of_le_of_lt (le_max_left _ _) hl
    have h2 : (v : ℤ) < 2 ^ 31 := lt_of_le_of_lt (le_max_right _ _) hl
    simp only [cCall, andThen_ok (checked_ok s), andThen_ok (dataDims_ok h s hk), andThen_ok (meshDims_ok h s hc),
      andThen_ok (imul_ok (some s) hv.symm (Int.natCast_nonneg _) h2),
      andThen_ok (imul_ok (some s) hx.symm (Int.natCast_nonneg _) h1),
      ulong_ok (Int.natCast_nonneg x.length) h1, ulong_ok (Int.natCast_nonneg v) h2,
      andThen_ok (span_ok (some s) (rfl : (x.length : ℤ) = x.length)),
      andThen_ok (outSpan_ok (some s) (rfl : (v : ℤ) = v))]
    exact api_plain h s rfl rfl (by simp)
  | writeGradientData m d n ids g =>
    obtain ⟨c, k, hc, hk, rfl, hg⟩ := hd
    have h1 : (ids.length : ℤ) < 2 ^ 31 := lt_of_le_of_lt (le_max_left _ _) hl
    have h2 : (g.length : ℤ) < 2 ^ 31 := lt_of_le_of_lt (le_max_right _ _) hl
    have h3 : (k : ℤ) * c < 2 ^ 31 := by
      have a := h.meshSmall m c hc
      have b := h.dataSmall m d k hk
      have : k * c ≤ 3 * 3 := Nat.mul_le_mul b a
      have : ((k * c : ℕ) : ℤ) ≤ 9 := by exact_mod_cast this
      push_cast at this
      linarith [show (9 : ℤ) < 2 ^ 31 by norm_num]
    have hg' : (ids.length : ℤ) * ((k : ℤ) * c) = g.length := by rw [hg]; ring
    simp only [cCall, andThen_ok (checked_ok s), andThen_ok (dataDims_ok h s hk), andThen_ok (meshDims_ok h s hc),
      andThen_ok (imul_ok (some s) (rfl : (k : ℤ) * c = k * c) (by positivity) h3),
      andThen_ok (imul_ok (some s) hg' (Int.natCast_nonneg _) h2),
      ulong_ok (Int.natCast_nonneg ids.length) h1, ulong_ok (Int.natCast_nonneg g.length) h2,
      andThen_ok (span_ok (some s) (rfl : (ids.length : ℤ) = ids.length)),
      andThen_ok (span_ok (some s) (rfl : (g.length : ℤ) = g.length))]
    exact api_plain h s rfl rfl (by simp)
  | setMeshAccessRegion m b =>
    obtain ⟨d, hm, hb⟩ := hd
    have hs := dims_lt (h.meshSmall m d hm)
    have hb' : (d : ℤ) * 2 = b.length := by rw [hb]; push_cast; ring
    simp only [cCall, andThen_ok (meshDims_ok h s hm), ulong_ok (Int.natCast_nonneg d) hs,
      umul_ok hb' (Int.natCast_nonneg _) (by omega), andThen_ok (span_ok (some s) (rfl : (b.length : ℤ) = b.length))]
    exact api_plain h s rfl rfl (by simp)
  | getMeshVertexIDsAndCoordinates m n ids x =>
    obtain ⟨d, hm, rfl, hx⟩ := hd
    have h1 : (ids : ℤ) < 2 ^ 31 := lt_of_le_of_lt (le_max_left _ _) hl
    have h2 : (x : ℤ) < 2 ^ 31 := lt_of_le_of_lt (le_max_right _ _) hl
    have hk : (d : ℤ) * ids = x := by rw [hx]; ring
    simp only [cCall, andThen_ok (meshDims_ok h s hm),
      andThen_ok (imul_ok (some s) hk (Int.natCast_nonneg _) h2), ulong_ok (Int.natCast_nonneg x) h2,
      ulong_ok (Int.natCast_nonneg ids) h1, andThen_ok (outSpan_ok (some s) (rfl : (ids : ℤ) = ids)),
      andThen_ok (outSpan_ok (some s) (rfl : (x : ℤ) = x))]
    exact api_plain h s rfl rfl (by simp)

/-! ### Names -/

theorem strippedReverse_blanks {b : List Char} (hb : ∀ c ∈ b, isBlank c = true) (l : List Char) :
    strippedReverse (b ++ l) = strippedReverse l := by
  induction b with
  | nil => rfl
  | cons c cs ih =>
    have hc := hb c (by simp)
    have : c = ' ' ∨ c = Char.ofNat 0 := by simpa [isBlank] using hc
    rw [List.cons_append, strippedReverse, if_pos this, ih fun x hx => hb x (by simp [hx])]

theorem stripped_padded {f : List Char} {n : String} (h : Padded f n) (s : Option σ) :
    stripped f s = .ok (n, s) := by
  obtain ⟨b, rfl, hb, c, hc, hn⟩ := h
  have hrev : ∃ l, n.toList.reverse = c :: l := by
    have := List.head?_reverse (l := n.toList)
    rw [hc] at this
    cases hl : n.toList.reverse with
    | nil => rw [hl] at this; simp at this
    | cons a l => rw [hl] at this; simp at this; exact ⟨l, by rw [this]⟩
  obtain ⟨l, hl⟩ := hrev
  have hcn : ¬ (c = ' ' ∨ c = Char.ofNat 0) := by
    intro hh
    have : isBlank c = true := by simpa [isBlank] using hh
    rw [hn] at this
    exact absurd this (by simp)
  unfold stripped
  rw [List.reverse_append, strippedReverse_blanks (by simpa using hb), hl, strippedReverse, if_neg hcn]
  simp only [ret, ← hl, List.reverse_reverse, String.ofList_toList]

theorem andThen_error {α β : Type} {x : M σ α} {f : α → M σ β} {s : Option σ} {e : Stop} (h : x s = .error e) :
    andThen x f s = .error e := by
  simp [andThen, h]

theorem fCall_cCall {A : Api σ} {D : Dims} (h : Sound A D) {f : Call (List Char)} {c : Call String}
    (hp : PaddedCall f c) (s : σ) : fCall A f (some s) = cCall A c (some s) := by
  obtain ⟨name, rfl, hn⟩ := hp
  cases f with
  | «initialize» | advance | finalize | isCouplingOngoing | isTimeWindowComplete | requiresInitialData
  | requiresWritingCheckpoint | requiresReadingCheckpoint => rfl
  | getMaxTimeStepSize | stopLastProfilingSection =>
    simp only [fCall, cCall, Call.map, andThen_ok (checked_ok s)]
  | startProfilingSection m =>
    have h1 := hn m (by simp [Call.names])
    simp only [fCall, cCall, Call.map, andThen_ok (checked_ok s), andThen_ok (stripped_padded h1 (some s))]
  | getMeshDimensions m | resetMesh m | getMeshVertexSize m | requiresMeshConnectivityFor m | setMeshVertex m
  | setMeshVertices m | setMeshEdge m | setMeshEdges m | setMeshTriangle m | setMeshTriangles m | setMeshQuad m
  | setMeshQuads m | setMeshTetrahedron m | setMeshTetrahedra m | getMeshVertexIDsAndCoordinates m =>
    have h1 := hn m (by simp [Call.names])
    simp only [fCall, cCall, Call.map, andThen_ok (checked_ok s), andThen_ok (stripped_padded h1 (some s))]
  | setMeshAccessRegion m b =>
    have h1 := hn m (by simp [Call.names])
    simp only [fCall, cCall, Call.map, andThen_ok (checked_ok s), andThen_ok (stripped_padded h1 (some s))]
    cases hd : D.mesh (name m) with
    | none => rw [andThen_error (meshDims_none h s hd), andThen_error (meshDims_none h s hd)]
    | some d =>
      have hs := h.meshSmall _ d hd
      have h0 : (d : ℤ) ≤ 3 := by exact_mod_cast hs
      have h2 : (0 : ℤ) ≤ (d : ℤ) * 2 := by positivity
      have h3 : (d : ℤ) * 2 < 2 ^ 31 := by omega
      simp only [andThen_ok (meshDims_ok h s hd), andThen_ok (imul_ok (some s) rfl h2 h3), ulong_ok h2 h3,
        ulong_ok (Int.natCast_nonneg d) (dims_lt hs), umul_ok rfl h2 (lt_trans h3 (by norm_num))]
  | getDataDimensions m d | requiresGradientDataFor m d | writeData m d | readData m d | writeAndMapData m d
  | mapAndReadData m d =>
    have h1 := hn m (by simp [Call.names])
    have h2 := hn d (by simp [Call.names])
    simp only [fCall, cCall, Call.map, andThen_ok (checked_ok s), andThen_ok (stripped_padded h1 (some s)),
      andThen_ok (stripped_padded h2 (some s))]
  | writeGradientData m d n ids g =>
    have h1 := hn m (by simp [Call.names])
    have h2 := hn d (by simp [Call.names])
    simp only [fCall, cCall, Call.map, andThen_ok (checked_ok s), andThen_ok (stripped_padded h1 (some s)),
      andThen_ok (stripped_padded h2 (some s))]
    cases hc : D.mesh (name m) with
    | none =>
      rw [andThen_error (meshDims_none h s hc)]
      cases hk : D.data (name m) (name d) with
      | none => rw [andThen_error (dataDims_none h s hk)]
      | some k => rw [andThen_ok (dataDims_ok h s hk), andThen_error (meshDims_none h s hc)]
    | some c =>
      rw [andThen_ok (meshDims_ok h s hc)]
      cases hk : D.data (name m) (name d) with
      | none => rw [andThen_error (dataDims_none h s hk), andThen_error (dataDims_none h s hk)]
      | some k =>
        simp only [andThen_ok (dataDims_ok h s hk), andThen_ok (meshDims_ok h s hc)]
        rw [show imul (σ := σ) (c : ℤ) k = imul (k : ℤ) c by unfold imul; rw [mul_comm]]

end Verif.Bindings
