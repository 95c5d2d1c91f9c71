import Verif.CrashMain
/- What extraction makes of each state of an interrupted build (helper lemmas for Props/Crash). -/
namespace V8.Crash

/-- extraction once the first container was read -/
theorem loop_read (g : Bytes) (n fuel steps : Nat) (r : ReadResult) (outs : List (List File))
    (hhdr : StoredAt g 0 (headerBytes fmt32 n)) (hr : readContainer fmt32 fuel g 0 = .ok r)
    (h : extractLoop g fuel steps 0 = .ok outs) :
    ∃ rest, outs = r.files :: rest ∧ ((g.length : Int) ≤ r.size ↔ rest = []) := by
  cases steps with
  | zero => cases h
  | succ steps =>
    rw [extractLoop, detect_header g n hhdr] at h
    simp only [hr] at h
    by_cases h0 : 0 + r.size = 0
    · rw [if_pos h0] at h; cases h
    · rw [if_neg h0] at h
      cases hx : extractLoop g fuel steps (0 + r.size) with
      | error e => rw [hx] at h; cases h
      | ok rest =>
        rw [hx] at h
        injection h with h
        refine ⟨rest, h.symm, fun hsz => ?_, fun hre => ?_⟩
        · cases steps with
          | zero => cases hx
          | succ steps =>
            have hd1 : detectFormat g (0 + r.size) = .ok none := by
              unfold detectFormat
              rw [if_neg (by omega)]
              have : readAt g (0 + r.size).toNat 8 = [] := by
                unfold readAt
                rw [List.drop_eq_nil_of_le (by omega)]; rfl
              rw [this]
              rw [if_neg (by decide), if_pos rfl]
            rw [extractLoop, hd1] at hx
            injection hx with hx
            exact hx.symm
        · subst hre
          cases steps with
          | zero => cases hx
          | succ steps =>
            rw [extractLoop] at hx
            cases hd : detectFormat g (0 + r.size) with
            | error e => rw [hd] at hx; cases hx
            | ok o =>
              cases o with
              | none =>
                unfold detectFormat at hd
                by_cases hneg : 0 + r.size < 0
                · rw [if_pos hneg] at hd; cases hd
                rw [if_neg hneg] at hd
                simp only at hd
                by_cases h1 : (readAt g (0 + r.size).toNat 8).take 4 = [0xFF, 0xFF, 0xFF, 0x7F]
                · rw [if_pos h1] at hd; cases hd
                rw [if_neg h1] at hd
                by_cases h2 : readAt g (0 + r.size).toNat 8 = []
                · have := congrArg List.length h2
                  rw [readAt_len, List.length_nil] at this
                  omega
                · rw [if_neg h2] at hd; cases hd
              | some fm =>
                rw [hd] at hx
                simp only at hx
                cases hr2 : readContainer fm fuel g (0 + r.size) with
                | error e => rw [hr2] at hx; cases hx
                | ok r2 =>
                  rw [hr2] at hx
                  simp only at hx
                  by_cases h0 : 0 + r.size + r2.size = 0
                  · rw [if_pos h0] at hx; cases hx
                  rw [if_neg h0] at hx
                  cases hx3 : extractLoop g fuel steps (0 + r.size + r2.size) with
                  | error e => rw [hx3] at hx; cases hx
                  | ok q => rw [hx3] at hx; cases hx

/-- extraction when the first container reaches to the end of the file -/
theorem loop_last (g : Bytes) (n fuel steps : Nat) (r : ReadResult) (hhdr : StoredAt g 0 (headerBytes fmt32 n))
    (hr : readContainer fmt32 fuel g 0 = .ok r) (hpos : 0 < r.size) (hsz : (g.length : Int) ≤ r.size) :
    extractLoop g fuel (steps + 2) 0 = .ok [r.files] := by
  have hd1 : detectFormat g (0 + r.size) = .ok none := by
    unfold detectFormat
    rw [if_neg (by omega)]
    have : readAt g (0 + r.size).toNat 8 = [] := by
      unfold readAt
      rw [List.drop_eq_nil_of_le (by omega)]; rfl
    rw [this]
    rw [if_neg (by decide), if_pos rfl]
  rw [extractLoop, detect_header g n hhdr]
  simp only [hr]
  rw [if_neg (by omega), extractLoop, hd1]

theorem full_short (t : Nat) (h : t ≤ 512) (hp : 0 < t) (full : Int) (hf : fullSize fmt32 t t fmt32.indexBlock = .ok full) :
    full = if t < 512 then 1536 else 543 := by
  have hm : ((fmt32.indexBlock : Nat) : Int) = 512 := rfl
  have hbh : ((fmt32.blockHeader : Nat) : Int) = 31 := rfl
  unfold fullSize at hf
  simp only [hm, hbh] at hf
  have hc : ceilDiv t t = 1 := (ceilDiv_one hp hp).mpr (Nat.le_refl _)
  by_cases ht : t < 512
  · rw [if_pos (by omega), if_neg (by omega), if_pos trivial, hc] at hf
    injection hf with hf
    rw [if_pos ht, ← hf]
    omega
  · rw [if_neg (by omega)] at hf
    injection hf with hf
    rw [if_neg ht, ← hf]
    omega

/-- the start of every file within a table of contents -/
theorem inplace32 (n k : Nat) (D B : Bytes) (hB : B.length ≤ 543) (hk : k ≤ B.length) (g : Bytes)
    (hg : g = writeAt (startBytes fmt32 n ++ D) 16 (B.take k)) :
    StoredAt g 0 (headerBytes fmt32 n) ∧ StoredAt g 559 D ∧ g.length = 559 + D.length := by
  have h := inplace fmt32 n k D B hB hk
  have hh := headerBytes_length fmt32 n
  replace h : g = headerBytes fmt32 n ++ (B.take k ++ List.replicate (543 - k) 0) ++ D := by rw [hg]; exact h
  have hl : (headerBytes fmt32 n ++ (B.take k ++ List.replicate (543 - k) 0)).length = 559 := by
    simp only [List.length_append, List.length_take, List.length_replicate, hh]
    have : fmt32.headerSize = 16 := rfl
    omega
  refine ⟨⟨[], (B.take k ++ List.replicate (543 - k) 0) ++ D, by rw [h]; simp, rfl⟩,
    ⟨headerBytes fmt32 n ++ (B.take k ++ List.replicate (543 - k) 0), [], by rw [h]; simp, hl⟩, ?_⟩
  rw [h, List.length_append, hl]

theorem outs_short (es : List Entry) (k fuel : Nat) (t g : Bytes) (ht : t = tocBytes fmt32 (tocOf fmt32 559 es))
    (h512 : t.length ≤ 512) (hpos : 0 < t.length) (hpl : ∀ e ∈ es, e.Plain) (hk : k ≤ 31 + t.length)
    (hN : 559 + (docsOf fmt32 es).length < 2 ^ 31) (hn : ∀ e ∈ es, GoodName e.name) (hnd : (es.map (·.name)).Nodup)
    (hg : g = writeAt (startBytes fmt32 es.length ++ docsOf fmt32 es) 16 ((blockBytes fmt32 t t.length 0 fmt32.marker).take k))
    (hge : 28 ≤ k) :
    g.length = 559 + (docsOf fmt32 es).length ∧ StoredAt g 0 (headerBytes fmt32 es.length) ∧
    readContainer fmt32 fuel g 0 = .ok ⟨16 + (if t.length < 512 then 1536 else 543) + ((docsOf fmt32 (es.take ((k - 31) / 12))).length : Nat),
      (es.take ((k - 31) / 12)).map Entry.asRead⟩ := by
  have hbl : (blockBytes fmt32 t t.length 0 fmt32.marker).length = 31 + t.length := by
    rw [blockBytes_length]; show 31 + _ = _; omega
  obtain ⟨h1, h2, h3⟩ := inplace32 es.length k _ _ (by omega) (by omega) g hg
  obtain ⟨full, hf, hd⟩ := table_cut fmt32 fmt32_wf es.length k fuel (docsOf fmt32 es) t h512 hpos hk hge g hg
  refine ⟨h3, h1, ?_⟩
  have hfull := full_short t.length h512 hpos full hf
  subst ht
  have := cut_read fmt32 fmt32_wf g es.length fuel (k - fmt32.blockHeader) full _ es h1 hd h2 (by rw [h3]; exact hN) hpl hn hnd
  rw [this, hfull]
  rfl

theorem outs_tail (es : List Entry) (k i fuel : Nat) (t g : Bytes) (ht : t = tocBytes fmt32 (tocOf fmt32 559 es))
    (h512 : 512 < t.length) (hi : t.length ≤ (i + 2) * 512) (hi' : (i + 1) * 512 < t.length) (hpl : ∀ e ∈ es, e.Plain)
    (hN : 559 + (docsOf fmt32 es).length + (i + 2) * 543 < 2 ^ 31) (hn : ∀ e ∈ es, GoodName e.name) (hnd : (es.map (·.name)).Nodup)
    (hg : g = writeAt (startBytes fmt32 es.length ++ docsOf fmt32 es) 16
          (blockBytes fmt32 (t.take 512) t.length 512 (559 + (docsOf fmt32 es).length)) ++
        (tailBlocks fmt32 (i + 1) (559 + (docsOf fmt32 es).length) (t.drop 512)).take k) :
    StoredAt g 0 (headerBytes fmt32 es.length) ∧
    ((∃ e, readContainer fmt32 fuel g 0 = .error e) ∨
      ∃ size, readContainer fmt32 fuel g 0 = .ok ⟨size, es.map Entry.asRead⟩ ∧ (g.length : Int) ≤ size) := by
  have htl : (tailBlocks fmt32 (i + 1) (559 + (docsOf fmt32 es).length) (t.drop 512)).length = (i + 2) * 543 :=
    tailBlocks_length fmt32 (i + 1) _ _
  generalize hX : (tailBlocks fmt32 (i + 1) (559 + (docsOf fmt32 es).length) (t.drop 512)).take k = X at hg
  have hXl : X.length ≤ (i + 2) * 543 := by rw [← hX, List.length_take]; omega
  have hbl : (blockBytes fmt32 (t.take 512) t.length 512 (559 + (docsOf fmt32 es).length)).length = 543 := by
    rw [blockBytes_length, List.length_take]; show 31 + _ = _; omega
  have hsl : (startBytes fmt32 es.length).length = 559 := startBytes_length fmt32 es.length
  have hg2 : g = writeAt (startBytes fmt32 es.length ++ (docsOf fmt32 es ++ X)) 16
      ((blockBytes fmt32 (t.take 512) t.length 512 (559 + (docsOf fmt32 es).length)).take 543) := by
    have e1 := inplace fmt32 es.length 543 (docsOf fmt32 es) _ (Nat.le_of_eq hbl) (by rw [hbl]; exact Nat.le_refl _)
    have e2 := inplace fmt32 es.length 543 (docsOf fmt32 es ++ X) _ (Nat.le_of_eq hbl) (by rw [hbl]; exact Nat.le_refl _)
    rw [hg]
    refine Eq.trans ?_ e2.symm
    rw [← List.append_assoc, ← e1, List.take_of_length_le (Nat.le_of_eq hbl)]
    rfl
  obtain ⟨h1, h2, h3⟩ := inplace32 es.length 543 _ _ (Nat.le_of_eq hbl) (by rw [hbl]; exact Nat.le_refl _) g hg2
  refine ⟨h1, ?_⟩
  have hg3 := hg2
  rw [show (512 : Nat) = fmt32.indexBlock from rfl, blockBytes_pad, padChunk_length] at hg3
  have hcap : (2 : Nat) ^ 31 < 16 ^ fmt32.hexW := by decide
  have htN : t.length < 2 ^ 31 := by
    have := toc_fuel fmt32 fmt32_wf 559 es
    rw [← ht] at this
    omega
  have hr := table_block fmt32 fmt32_wf es.length 543 (docsOf fmt32 es ++ X) (padChunk fmt32.indexBlock t) t.length fmt32.indexBlock
    (559 + (docsOf fmt32 es).length) (Nat.le_of_eq (padChunk_length _ _)) (by rw [padChunk_length]; decide) (by decide)
    (by omega) fmt32_wf.ibHex (by omega) (Nat.le_refl _) (Nat.le_of_lt h512) g hg3
  have hdata : ((padChunk fmt32.indexBlock t).take (543 - fmt32.blockHeader) ++
        List.replicate (fmt32.indexBlock - (543 - fmt32.blockHeader)) 0).take fmt32.indexBlock = t.take 512 := by
    show ((padChunk 512 t).take 512 ++ List.replicate 0 0).take 512 = t.take 512
    have hp : (padChunk 512 t) = t.take 512 := by
      unfold padChunk
      have : 512 - (t.take 512).length = 0 := by rw [List.length_take]; omega
      rw [this]; simp
    rw [hp]
    simp [List.take_take]
  rw [hdata] at hr
  have hch := tail_cut fmt32 fmt32_wf (i + 1) g
    (writeAt (startBytes fmt32 es.length ++ docsOf fmt32 es) 16
          (blockBytes fmt32 (t.take 512) t.length 512 (559 + (docsOf fmt32 es).length))) k (559 + (docsOf fmt32 es).length) (t.drop 512) fuel
    (by rw [hX]; exact hg) (by
      rw [writeAt_inside _ _ _ (by rw [List.length_append, hsl]; omega)]
      simp only [List.length_append, List.length_take, List.length_drop, hbl, hsl]
      omega) (by
      rw [List.length_drop]; show _ ≤ (i + 1) * 512
      omega) (by rw [htl]; exact hN)
  have hleft : t.length - (t.take 512).length = (t.drop 512).length := by
    rw [List.length_take, List.length_drop]; omega
  obtain ⟨c1, c2, c3⟩ := ceilDiv_spec (a := t.length) (b := 512) (by omega) (by decide)
  have hcd : ceilDiv t.length 512 = i + 2 := by
    generalize ceilDiv t.length 512 = c at *
    omega
  have hfs : fullSize fmt32 t.length 512 512 = .ok ((t.length : Int) + (i + 2) * 512 + 512) := by
    unfold fullSize
    simp only
    have hm : ((fmt32.indexBlock : Nat) : Int) = 512 := rfl
    rw [if_pos (by omega), if_neg (by omega), hm, if_pos rfl, hcd]
    congr 1
    omega
  have hrd : (∃ e, readDoc fmt32 fuel g 0 fmt32.headerSize fmt32.indexBlock = .error e) ∨
      readDoc fmt32 fuel g 0 fmt32.headerSize fmt32.indexBlock = .ok ⟨(t.length : Int) + (i + 2) * 512 + 512, t.length, t⟩ := by
    unfold readDoc
    rw [hr]
    simp only
    rw [show ((fmt32.indexBlock : Nat) : Int) = 512 from rfl, show fmt32.indexBlock = 512 from rfl, hfs]
    simp only [hleft]
    rcases hch with ⟨e, he⟩ | hch
    · left; rw [he]; exact ⟨_, rfl⟩
    · right; rw [hch]; simp only [List.take_append_drop]
  rcases hrd with ⟨e, he⟩ | hrd
  · left
    rw [readContainer_doc fmt32 g es.length fuel h1, he]
    exact ⟨_, rfl⟩
  · right
    have hcut := cut_read fmt32 fmt32_wf g es.length fuel t.length ((t.length : Int) + (i + 2) * 512 + 512) t.length es h1 (by
      rw [hrd]
      subst ht
      have : ∀ x : Bytes, x.take x.length ++ List.replicate (x.length - x.length) 0 = x := by intro x; simp
      exact congrArg _ (congrArg _ (this _).symm)) h2.left (by rw [h3, List.length_append]; show _ < 2 ^ 31; omega) hpl hn hnd
    have hm : es.take (t.length / (3 * fmt32.idxW)) = es := by
      apply List.take_of_length_le
      have h5 := tocBytes_length fmt32 (tocOf fmt32 559 es)
      rw [← ht, tocOf_length] at h5
      rw [h5, Nat.mul_div_cancel_left _ (by decide)]
      exact Nat.le_refl _
    rw [hm] at hcut
    refine ⟨_, hcut, ?_⟩
    rw [h3, List.length_append]
    have : ((fmt32.headerSize : Nat) : Int) = 16 := rfl
    omega

end V8.Crash
