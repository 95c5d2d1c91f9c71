import Verif.BraceSpec
import Verif.Module
/-
A boolean test that is sufficient for the well-formedness of brace data (BraceSpec.lean), for the concrete data in examples.
-/
namespace V8.Brace
open V8.Module (strDecode undouble)

def atomB (e : Text) : Bool :=
  (decide ('\r' ∉ undouble (strDecode e) ∧ e = quoted (undouble (strDecode e))) ||
    decide (e.head? ≠ some '#' ∧ ∀ c ∈ e, c ≠ ',' ∧ c ≠ '}' ∧ c ≠ '"' ∧ c ≠ '\n' ∧ c ≠ '\r')) && decide (¬ TakenForBase64 e)

theorem atomB_ok (e : Text) (h : atomB e = true) : Atom e := by
  unfold atomB at h
  rw [Bool.and_eq_true, Bool.or_eq_true, decide_eq_true_eq, decide_eq_true_eq, decide_eq_true_eq] at h
  refine ⟨?_, h.2⟩
  rcases h.1 with h1 | h1
  · exact .inl ⟨_, h1.1, h1.2⟩
  · exact .inr h1

mutual
def valB (prev : Bool) : Val → Bool
  | .none => prev
  | .str e => (!e.isEmpty || !prev) && atomB e
  | .list l => !l.isEmpty && elemsB false l
def elemsB (prev : Bool) : List Val → Bool
  | [] => true
  | v :: r => valB prev v && elemsB v.isList r
end

mutual
theorem valB_ok : ∀ (prev last : Bool) (v : Val), valB prev v = true → WFVal prev last v
  | prev, last, .none, h => by rw [valB] at h; rw [WFVal]; exact h
  | prev, last, .str e, h => by
    rw [valB, Bool.and_eq_true, Bool.or_eq_true] at h
    rw [WFVal]
    refine ⟨?_, .inl (atomB_ok e h.2)⟩
    intro he
    rcases h.1 with h1 | h1
    · subst he; cases h1
    · cases prev with
      | false => rfl
      | true => cases h1
  | prev, last, .list l, h => by
    rw [valB, Bool.and_eq_true] at h
    rw [WFVal]
    refine .inr ⟨?_, elemsB_ok false l h.2⟩
    intro hl
    subst hl
    exact absurd h.1 (by decide)
theorem elemsB_ok : ∀ (prev : Bool) (l : List Val), elemsB prev l = true → WFElems prev l
  | _, [], _ => by rw [WFElems]; trivial
  | prev, v :: r, h => by
    rw [elemsB, Bool.and_eq_true] at h
    rw [WFElems]
    exact ⟨valB_ok prev _ v h.1, elemsB_ok _ r h.2⟩
end

mutual
def blobB : Val → Bool
  | .none => false
  | .str e => decide (e.head? = some '#')
  | .list l => blobsB l
def blobsB : List Val → Bool
  | [] => false
  | v :: r => blobB v || blobsB r
end

mutual
theorem blobB_ok : ∀ v : Val, blobB v = false → ¬ HasBlob v
  | .none, _ => by rw [HasBlob]; exact id
  | .str e, _ => by rw [HasBlob]; exact id
  | .list l, h => by
    rw [blobB] at h
    rw [HasBlob]
    rintro (⟨e, rfl, he⟩ | h2)
    · rw [blobsB, blobB, he] at h
      cases h
    · exact blobsB_ok l h h2
theorem blobsB_ok : ∀ l : List Val, blobsB l = false → ¬ HasBlobs l
  | [], _ => by rw [HasBlobs]; exact id
  | v :: r, h => by
    rw [blobsB, Bool.or_eq_false_iff] at h
    rw [HasBlobs]
    rintro (h2 | h2)
    · exact blobB_ok v h.1 h2
    · exact blobsB_ok r h.2 h2
end

/-- the test for a whole file -/
def fileB (d : List (List Val)) : Bool := d.all (fun l => valB false (.list l) && !blobsB l)

theorem fileB_ok (d : List (List Val)) (h : fileB d = true) : WFFile d := by
  unfold fileB at h
  rw [List.all_eq_true] at h
  refine ⟨?_, ?_⟩
  · intro l hl
    have := h l hl
    rw [Bool.and_eq_true] at this
    exact valB_ok false true (.list l) this.1
  · unfold NotBigBinary
    split
    · rename_i v _ _
      have := h _ List.mem_cons_self
      rw [Bool.and_eq_true, Bool.not_eq_true', blobsB, blobsB, Bool.or_eq_false_iff, Bool.or_eq_false_iff] at this
      exact blobB_ok v this.2.2.1
    · trivial

end V8.Brace
