import Verif.Model.Stream
/-!
Model of the questions to a `LimitedStream`, `/repo/verktyg/wsgi.py:817-829, 923-926`.
-/
namespace Verif.Stream
open Verif

/-- `LimitedStream(stream, limit)`, wsgi.py:817-821. -/
def mk (data : Bytes) (fails : List Bool) (limit : Int) : LS := ⟨⟨data, fails⟩, 0, limit⟩

/-- `tell()`, wsgi.py:923-926. -/
def tell (s : LS) : Int := s.pos

/-- `is_exhausted`, wsgi.py:826-829. -/
def isExhausted (s : LS) : Bool := s.pos ≥ s.limit

end Verif.Stream
