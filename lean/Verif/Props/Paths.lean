import Verif.Lemmas.Paths

/-!
# C85: paths of included files
-/

namespace Verif

/-- **C85**: the normalised path leads to the same place, and paths have the same normalised path exactly if they
lead to the same place, wherever one starts. -/
theorem C85_normal (p q : List Char) : (∀ cwd : Place, cwd.follow (normpath p) = cwd.follow p) ∧
    (normpath p = normpath q ↔ ∀ cwd : Place, cwd.follow p = cwd.follow q) :=
  ⟨fun cwd => follow_normpath cwd p,
   fun h cwd => by rw [← follow_normpath cwd p, h, follow_normpath], normpath_unique⟩

/-- `a/../b/./c` and `b//c`, but not `a/b/c`, are the same; `..` from the root is the root. -/
example : normpath "a/../b/./c".toList = "b/c".toList ∧ normpath "b//c".toList = "b/c".toList ∧
    normpath "a/b/c".toList = "a/b/c".toList ∧ normpath "/../a".toList = "/a".toList ∧ normpath "../a".toList = "../a".toList ∧
    Place.follow ⟨false, ["home".toList]⟩ "a/../b/./c".toList = ⟨false, ["c".toList, "b".toList, "home".toList]⟩ := by decide +kernel
/-- Two slashes at the beginning are not one. -/
example : normpath "//a".toList = "//a".toList ∧ normpath "///a".toList = "/a".toList ∧
    Place.follow ⟨false, []⟩ "//a".toList ≠ Place.follow ⟨false, []⟩ "///a".toList := by decide +kernel

/-- **C85**: a file named `name` in a file of the directory `d` is looked up from this directory. -/
theorem C85_include (cwd : Place) (d f name : List Char) (hf : '/' ∉ f) (hd : d = [] ∨ d.getLast? = some '/') :
    cwd.follow (joinPath (dirname (d ++ f)) name) = (cwd.follow d).follow name := by
  rw [follow_join, follow_dirname cwd d f hf hd]

/-- `lib/../x.asl`, included by `src/main.asl`, by `/main.asl`, by `main.asl`. -/
example : joinPath (dirname "src//main.asl".toList) "lib/../x.asl".toList = "src/lib/../x.asl".toList ∧
    joinPath (dirname "/main.asl".toList) "x.asl".toList = "/x.asl".toList ∧
    joinPath (dirname "main.asl".toList) "x.asl".toList = "x.asl".toList ∧
    joinPath (dirname "src/main.asl".toList) "/x.asl".toList = "/x.asl".toList ∧
    Place.follow ⟨false, ["home".toList]⟩ "src/lib/../x.asl".toList = ⟨false, ["x.asl".toList, "src".toList, "home".toList]⟩ := by decide +kernel

/-- **C85**: an include is taken for recursive only if it leads to one of the files that are being read; if the name has no
`.`, `..` or empty components and the path of the including file is normalised, exactly then. -/
theorem C85_guard (active : List (List Char)) (file name : List Char) :
    (joinPath (dirname file) name ∈ active.map normpath →
      ∃ f ∈ active, ∀ cwd : Place, cwd.follow (joinPath (dirname file) name) = cwd.follow f) ∧
    (normpath file = file → SimplePath name →
      (∃ f ∈ active, ∀ cwd : Place, cwd.follow (joinPath (dirname file) name) = cwd.follow f) →
      joinPath (dirname file) name ∈ active.map normpath) := by
  constructor
  · intro h
    obtain ⟨f, hf, he⟩ := List.mem_map.1 h
    exact ⟨f, hf, fun cwd => by rw [← he, follow_normpath]⟩
  · rintro hn hs ⟨f, hf, he⟩
    exact List.mem_map.2 ⟨f, hf, by rw [← normpath_unique he, norm_include hn hs]⟩

/-- The hypotheses hold for `c.asl` in `a/main.asl`. -/
example : normpath "a/main.asl".toList = "a/main.asl".toList ∧ SimplePath "c.asl".toList :=
  ⟨by decide +kernel, .word (by decide) (by decide)⟩
/-- Names with dots are not recognised: from `./main.asl`, the file itself. -/
example : joinPath (dirname "./main.asl".toList) "main.asl".toList ∉ ["./main.asl".toList].map normpath ∧
    joinPath (dirname "./main.asl".toList) "main.asl".toList = "./main.asl".toList := by decide +kernel

end Verif
