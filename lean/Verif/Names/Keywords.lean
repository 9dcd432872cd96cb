/-
The reserved words known to the name clash checkers, copied from the source.
-/
namespace Verif.Names

/-- `CNameClashChecker.keywords`: pyccel/naming/cnameclashchecker.py:23-115. -/
def cKeywords : List String :=
  ["isign", "fsign", "csign", "auto", "break", "case", "char", "const", "continue",
   "default", "do", "double", "else", "enum", "extern", "float", "for", "goto", "if",
   "inline", "int", "long", "register", "restrict", "return", "short", "signed", "sizeof",
   "static", "struct", "switch", "typedef", "union", "unsigned", "void", "volatile", "whie",
   "_Alignas", "_Alignof", "_Atomic", "_Bool", "_Complex", "Decimal128", "_Decimal32",
   "_Decimal64", "_Generic", "_Imaginary", "_Noreturn", "_Static_assert", "_Thread_local",
   "I", "cspan_copy", "c_foreach", "c_COLMAJOR", "c_ROWMAJOR", "cspan_md_layout",
   "using_cspan", "STC_CSPAN_INDEX_TYPE", "array_int64_1d", "array_int64_2d",
   "array_int64_3d", "array_int32_1d", "array_int32_2d", "array_int32_3d", "array_float_1d",
   "array_float_2d", "array_float_3d", "array_double_1d", "array_double_2d",
   "array_double_3d", "array_bool_1d", "array_bool_2d", "array_bool_3d",
   "array_float_complex_1d", "array_float_complex_2d", "array_float_complex_3d",
   "array_double_complex_1d", "array_double_complex_2d", "array_double_complex_3d", "c_ALL",
   "c_END", "cspan_slice", "cspan_transpose", "complex_max", "complex_min", "expm1",
   "complex_expm1", "main"]

/-- `FortranNameClashChecker.keywords`: pyccel/naming/fortrannameclashchecker.py:28-163. -/
def fKeywords : List String :=
  ["assign", "backspace", "block", "blockdata", "call", "close", "common", "continue",
   "data", "dimension", "do", "else", "elseif", "end", "endfile", "endif", "endfunction",
   "endmodule", "endprogram", "endsubroutine", "entry", "equivalence", "external", "format",
   "function", "goto", "if", "implicit", "intrinsic", "open", "parameter", "pause", "print",
   "program", "read", "return", "rewind", "rewrite", "save", "stop", "subroutine", "then",
   "write", "allocatable", "allocate", "case", "contains", "cycle", "deallocate",
   "elsewhere", "exit", "include", "interface", "intent", "module", "namelist", "nullify",
   "only", "operator", "optional", "pointer", "private", "procedure", "public", "recursive",
   "result", "select", "sequence", "target", "use", "while", "where", "elemental", "forall",
   "pure", "abstract", "associate", "asynchronous", "bind", "class", "deferred", "enum",
   "enumerator", "extends", "final", "flush", "generic", "import", "non_overridable",
   "nopass", "pass", "protected", "value", "volatile", "wait", "codimension", "concurrent",
   "contiguous", "critical", "error", "submodule", "sync", "lock", "unlock", "test", "abs",
   "sqrt", "sin", "cos", "tan", "asin", "acos", "atan", "exp", "log", "int", "nint",
   "floor", "fraction", "real", "max", "mod", "count", "pack", "numpy_sign", "c_associated",
   "c_loc", "c_f_pointer", "c_ptr", "c_malloc", "storage_size", "c_size_t"]

end Verif.Names
