import Verif.Spec.Query
/- CDATA sections with tags inside, as the reader takes them. -/
namespace Verif.Spec

/-- `<![CDATA[`, text, content beginning with a tag or the like, `]]>` and what is next. -/
def sectionOf (a : Bytes) (g next : Forest) : Forest := .misc (.mark (b!"[CDATA[" ++ a)) (g.append (.text b!"]]>" next))

end Verif.Spec
