import Verif.Model.Names
import Verif.Lemmas.Lexer
import Verif.Lemmas.Str
/-!
C93: small values are read from their names.
-/
namespace Ftml

/-- C93: the text of a link type is read as this type, and no other text is. -/
theorem C93_link_types (s : Str) (t : LinkType) : LinkType.ofStr s = some t ↔ s = t.name := by
  constructor
  · intro h
    unfold LinkType.ofStr at h
    repeat' split at h
    all_goals first | cases h | skip
    all_goals simp_all [LinkType.name]
  · rintro rfl
    cases t <;> rfl

/-- C93: the text of a layout is read as this layout, in any letter case, and no other text is. -/
theorem C93_layouts (s : Str) (l : Layout) : Layout.ofStr s = some l ↔ s.map lowerC = l.value := by
  constructor
  · intro h
    unfold Layout.ofStr at h
    repeat' split at h
    all_goals first | cases h | skip
    all_goals simp_all [Layout.value, eqIgnoreCase, lowerA] <;> decide
  · intro h
    unfold Layout.ofStr eqIgnoreCase lowerA
    rw [h]
    cases l <;> rfl

/-- The marks of alignments. -/
def alignMark : Alignment → Str
  | .left => c!"<"
  | .right => c!">"
  | .center => c!"="
  | .justify => c!"=="

/-- C93: the mark of an alignment is read as this alignment, and no other text is. -/
theorem C93_alignments (s : Str) (a : Alignment) : Alignment.ofStr s = some a ↔ s = alignMark a := by
  constructor
  · intro h
    unfold Alignment.ofStr at h
    repeat' split at h
    all_goals first | cases h | skip
    all_goals simp_all [alignMark]
  · rintro rfl
    cases a <;> rfl

/-- C93: every heading is read from its marks: its prefix, followed by an asterisk if it is not to be listed. -/
theorem C93_heading_marks {h : Heading} {p : Str} (hp : headingPrefix h.level = some p) :
    Heading.ofStr (if h.hasToc then p else p ++ c!"*") = some h := by
  obtain ⟨n, toc⟩ := h
  dsimp only at hp ⊢
  unfold headingPrefix at hp
  split at hp
  all_goals first | cases hp | skip
  all_goals cases toc <;> decide +kernel

/-- C93: which texts are read as headings: the level is the number of bytes before the end or the asterisk. (So the
other characters need not be plus signs: `ab+` is read as `+++`.) -/
theorem C93_headings (s : Str) (h : Heading) : Heading.ofStr s = some h ↔
    1 ≤ h.level ∧ h.level ≤ 6 ∧
    ((h.hasToc = true ∧ h.level = byteLen s ∧ ∃ x, s = x ++ c!"+") ∨ (h.hasToc = false ∧ ∃ x, s = x ++ c!"*" ∧ h.level = byteLen x)) := by
  obtain ⟨n, toc⟩ := h
  unfold Heading.ofStr
  rcases List.eq_nil_or_concat s with rfl | ⟨x, c, rfl⟩
  · simp
  · rw [List.concat_eq_append, List.getLast?_concat]
    dsimp only
    by_cases h1 : c = '+'
    · subst h1
      simp only [if_true, Option.bind_some]
      split
      · rename_i hr
        simp only [Option.some.injEq, Heading.mk.injEq]
        constructor
        · rintro ⟨rfl, rfl⟩
          exact ⟨hr.1, hr.2, .inl ⟨rfl, rfl, x, rfl⟩⟩
        · rintro ⟨_, _, ⟨rfl, h, _⟩ | ⟨_, y, hy, _⟩⟩
          · exact ⟨h.symm, rfl⟩
          · have := congrArg List.getLast? hy
            simp at this
      · rename_i hr
        simp only [reduceCtorEq, false_iff]
        rintro ⟨ha, hb, ⟨_, h, _⟩ | ⟨_, y, hy, _⟩⟩
        · exact hr ⟨h ▸ ha, h ▸ hb⟩
        · have := congrArg List.getLast? hy
          simp at this
    · rw [if_neg h1]
      by_cases h2 : c = '*'
      · subst h2
        have hl : byteLen (x ++ ['*']) - 1 = byteLen x := by simp [byteLen_append]; rfl
        simp only [if_true, Option.bind_some, hl]
        split
        · rename_i hr
          simp only [Option.some.injEq, Heading.mk.injEq]
          constructor
          · rintro ⟨rfl, rfl⟩
            exact ⟨hr.1, hr.2, .inr ⟨rfl, x, rfl, rfl⟩⟩
          · rintro ⟨_, _, ⟨_, _, y, hy⟩ | ⟨rfl, y, hy, h⟩⟩
            · have := congrArg List.getLast? hy
              simp at this
            · obtain ⟨rfl, _⟩ := List.append_inj' hy rfl
              exact ⟨h.symm, rfl⟩
        · rename_i hr
          simp only [reduceCtorEq, false_iff]
          rintro ⟨ha, hb, ⟨_, _, y, hy⟩ | ⟨_, y, hy, h⟩⟩
          · have := congrArg List.getLast? hy
            simp at this
          · obtain ⟨rfl, _⟩ := List.append_inj' hy rfl
            exact hr ⟨h ▸ ha, h ▸ hb⟩
      · rw [if_neg h2]
        simp only [Option.bind_none, reduceCtorEq, false_iff]
        rintro ⟨_, _, ⟨_, _, y, hy⟩ | ⟨_, y, hy, _⟩⟩
        · have := congrArg List.getLast? hy
          simp at this
          exact h1 this
        · have := congrArg List.getLast? hy
          simp at this
          exact h2 this

/-- Texts that are headings, one that is too long, and one that should not be. -/
example : Heading.ofStr c!"+++" = some ⟨3, true⟩ ∧ Heading.ofStr c!"++++++*" = some ⟨6, false⟩ ∧ Heading.ofStr c!"+++++++" = none ∧
    Heading.ofStr c!"ab+" = some ⟨3, true⟩ ∧ Layout.ofStr c!"WikiDot" = some .wikidot ∧ LinkType.ofStr c!"Page" = none := by decide +kernel

/-- Unicode's white space. -/
def whiteSpaceCodes : List Nat := [0x09, 0x0A, 0x0B, 0x0C, 0x0D, 0x20, 0x85, 0xA0, 0x1680, 0x2000, 0x2001, 0x2002, 0x2003, 0x2004, 0x2005,
  0x2006, 0x2007, 0x2008, 0x2009, 0x200A, 0x2028, 0x2029, 0x202F, 0x205F, 0x3000]

private theorem ws_codes (c : Char) : isWS c = true ↔ c.toNat ∈ whiteSpaceCodes := by
  simp only [isWS, whiteSpaceCodes, Bool.or_eq_true, Bool.and_eq_true, decide_eq_true_eq, beq_iff_eq, List.mem_cons, List.not_mem_nil, or_false]
  omega

/-- C93: values lose the white space around them, all of it and nothing else; white space is what it is in Unicode. -/
theorem C93_trim (s : Str) : ∃ a b, s = a ++ trim s ++ b ∧ (∀ c ∈ a ++ b, c.toNat ∈ whiteSpaceCodes) ∧
    ∀ c, (trim s).head? = some c ∨ (trim s).getLast? = some c → c.toNat ∉ whiteSpaceCodes := by
  obtain ⟨a, b, h1, h2, h3⟩ := trim_decomp s
  refine ⟨a, b, h1, ?_, ?_⟩
  · intro c hc
    rcases List.mem_append.1 hc with h | h
    · exact (ws_codes c).1 (h2 c h)
    · exact (ws_codes c).1 (h3 c h)
  · intro c hc hm
    have := (ws_codes c).2 hm
    rcases hc with h | h
    · rw [trim_head s c h] at this; cases this
    · rw [trim_last s c h] at this; cases this

/-- A no-break space, a space and an ideographic space around a value. -/
example : trim [Char.ofNat 0xA0, ' ', 'a', ' ', 'b', Char.ofNat 0x3000, '\n'] = c!"a b" := by decide +kernel

end Ftml
