import Verif.Spec.Edits
/-!
# Specification: calendars put together from components
-/

namespace Ics.Spec

/-- The calendar object with these lines between its BEGIN and END lines. -/
def calText (k : List Line) : Str := c!"BEGIN:VCALENDAR\r\n" ++ k.flatMap printLine ++ c!"END:VCALENDAR\r\n"

/-- The lines every calendar object needs. -/
def headLines : List Line := [⟨c!"VERSION", [], c!"2.0"⟩, ⟨c!"PRODID", [], c!"-"⟩]

/-- Nothing but blocks. -/
def OnlyBlocks (is : List Item) : Prop := ∀ i ∈ is, ∃ n k, i = .block n k

/-- The calendar `c` with the components of `d` added; those with the name `n` are put behind the first `at n` that `c` has. -/
def addComponents (c d : Cal) (pos : Str → Nat) : Cal :=
  ⟨c.fields, (List.range tabCalendar.subs.length).map fun i =>
    let n := pos (tabCalendar.subs.getD i ([], tabEvent)).1
    (c.subs.getD i []).take n ++ d.subs.getD i [] ++ (c.subs.getD i []).drop n⟩

end Ics.Spec
