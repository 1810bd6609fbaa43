import Verif.Lemmas.PegStrings
/-
Merge expressions.
-/
namespace Spiff
open Peg

def mergeRefTable : Table := [(lit "replace".toList, .fail need0), (lit "required".toList, .fail need0), (.nt .On, .fail need0)] ++ refTable

theorem mergeRef_facts {k : Txt} {P : List Txt} (hk : FirstKey k) (hm : MergeKey k) (hP : ∀ c ∈ P, CompText c) :
    Facts (k ++ pathTail P) [⟨.Reference, k ++ pathTail P⟩] mergeRefTable := by
  intro x hx
  rcases List.mem_append.mp hx with hx | hx
  · simp only [List.mem_cons, List.not_mem_nil, or_false] at hx
    rcases hx with rfl | rfl | rfl
    · intro s hs
      refine lit_none (fun h => ?_)
      rw [List.append_assoc] at h
      exact hm.noReplace (prefix_word (by decide) (tail_wordEnd (stops_of hs).head) h)
    · intro s hs
      refine lit_none (fun h => ?_)
      rw [List.append_assoc] at h
      exact hm.noRequired (prefix_word (by decide) (tail_wordEnd (stops_of hs).head) h)
    · intro s hs
      have hst := stops_of hs
      refine .nt_no ?_
      by_cases hp : "on".toList <+: k ++ pathTail P ++ s
      · have hp' := hp
        rw [List.append_assoc] at hp'
        have h2 := prefix_word (by decide) (tail_wordEnd hst.head) hp'
        obtain ⟨x, e⟩ := h2
        have hx : x ≠ [] := by
          rintro rfl
          exact hm.noOn (by simpa using e.symm)
        have h3 := lit_some "on".toList (x ++ (pathTail P ++ s))
        rw [← List.append_assoc, e, ← List.append_assoc] at h3
        refine .seq_no2 h3 (.seq_no1 (.nt_no (.seq_no1 ?_)))
        cases x with
        | nil => exact absurd rfl hx
        | cons d y =>
          have hd := hk.chars d (by rw [← e]; simp)
          refine .alt2 (.chr_no ?_) (.alt2 (.chr_no ?_) (.alt2 (.chr_no ?_) (.chr_no ?_))) <;> (rintro rfl; exact absurd hd (by decide))
      · exact .seq_no1 (lit_none hp)
  · exact ref_facts hk hP x hx

/-- tables of merges: operands of `||` -/
def mergeTable : Table := (.chr '.', .fail []) :: nonIndex (closedTable 7)

theorem merge_form : checkTable (tablesOf []) (symChars "merge".toList) [.tok .SimpleMerge [], .tok .Merge []] mergeTable = true := by decide +kernel
theorem mergeOn_form : checkTable (tablesOf [nameTable]) (symChars "merge on ".toList ++ [.hole 0]) [.hole 0, .tok .On [], .tok .SimpleMerge [], .tok .Merge []]
    mergeTable = true := by decide +kernel
theorem mergeRef_form : checkTable (tablesOf [mergeRefTable]) (symChars "merge ".toList ++ [.hole 0]) [.hole 0, .tok .RefMerge [], .tok .Merge []]
    mergeTable = true := by decide +kernel
theorem mergeReplace_form : checkTable (tablesOf [refTable]) (symChars "merge replace ".toList ++ [.hole 0]) [.tok .Replace [], .hole 0, .tok .RefMerge [], .tok .Merge []]
    mergeTable = true := by decide +kernel
theorem mergeOnRef_form : checkTable (tablesOf [nameTable, refTable]) (symChars "merge on ".toList ++ [.hole 0, .ch ' ', .hole 1])
    [.hole 0, .tok .On [], .hole 1, .tok .RefMerge [], .tok .Merge []] mergeTable = true := by decide +kernel

end Spiff
