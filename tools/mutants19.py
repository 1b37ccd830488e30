MUTANTS = []
def m(id, file, definition, what, edits, breaks):
    MUTANTS.append(dict(id=id, file=file, definition=definition, what=what, edits=edits, breaks=breaks))
# --- references that mean the same (C122)
m("NN01","Uri","join","the path of a reference with a scheme keeps its dot segments",[("{ scheme := some s, authority := reference.authority,\n        path := reference.path.removeDotSegments,","{ scheme := some s, authority := reference.authority,\n        path := reference.path,")],["C122"])
m("NN02","Uri","join","a reference with an authority loses its query",[("{ scheme := base.scheme, authority := some a,\n            path := reference.path.removeDotSegments,\n            query := reference.query, fragment","{ scheme := base.scheme, authority := some a,\n            path := reference.path.removeDotSegments,\n            query := base.query, fragment")],["C122"])
m("NN03","Uri","join","a reference without a path loses its fragment",[("query := if reference.query.isSome then reference.query else base.query,\n              fragment := reference.fragment","query := if reference.query.isSome then reference.query else base.query,\n              fragment := base.fragment")],["C122"])
m("NN04","Uri","join","the scheme is always ignored if it is that of the base",[("if !strict && optEq SV.eq reference.scheme base.scheme then none","if optEq SV.eq reference.scheme base.scheme then none")],["C122"])
m("NN05","Uri","join","the scheme of the base is never compared",[("if !strict && optEq SV.eq reference.scheme base.scheme then none","if !strict && reference.scheme.isNone then none")],["C122","C107"])
m("NN06","Uri","merge","a base without a path does not make the path absolute",[("{ absolute := true, segments := ref.path.segments }","{ absolute := base.path.absolute, segments := ref.path.segments }")],["C16"])
