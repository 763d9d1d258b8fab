#!/usr/bin/env python3
"""Transcribes the static tables of libhext/src/Parser.cpp into Lean (no code is run)."""
import re, sys

SRC = "/repo/libhext/src/Parser.cpp"
OUT = "/verif/lean/Verif/Model/ParserTables.lean"

NAMES = ["actions", "key_offsets", "trans_keys", "single_lengths", "range_lengths",
         "index_offsets", "indicies", "trans_targs", "trans_actions", "eof_actions"]

def camel(n):
    a = n.split("_")
    return a[0] + "".join(x.capitalize() for x in a[1:])

def tables():
    text = open(SRC).read()
    res = {}
    for n in NAMES:
        m = re.search(r"static const (char|short) _hext_%s\[\] = \{\n(.*?)\n\};" % n, text, re.S)
        first = text[:m.start()].count("\n") + 1
        last = text[:m.end()].count("\n") + 1
        rows = [[int(x) for x in line.replace(",", " ").split()] for line in m.group(2).split("\n")]
        res[n] = (first, last, m.group(1), rows)
    return res

def main():
    out = ["/-!", "# The tables of the generated parser", "",
           "Written by tools/gen_tables.py from libhext/src/Parser.cpp; one line per line of the source.", "-/", "",
           "namespace Hext.Tables", ""]
    for n, (first, last, ty, rows) in tables().items():
        out.append(f"/-- `_hext_{n}`, Parser.cpp:{first}-{last} (`static const {ty}[]`). -/")
        out.append(f"def {camel(n)} : List Nat :=")
        out.append("  List.flatten [")
        out.append(",\n".join("    [" + ", ".join(map(str, r)) + "]" for r in rows))
        out.append("  ]")
        out.append("")
    out.append("end Hext.Tables")
    open(OUT, "w").write("\n".join(out) + "\n")

if __name__ == "__main__":
    main()
