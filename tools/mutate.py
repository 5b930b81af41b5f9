#!/usr/bin/env python3
"""Test the theorems against wrong programs.

usage: mutate.py MUTANTS.json [--only ID ...]

Each mutant is {"id", "file", "old", "new", "definition", "edit", "claim"}.  In a scratch copy (outside /verif) the text
`old` (which must occur exactly once) is replaced by `new`, and the project is rebuilt.  A declaration whose proof fails is
admitted IN THE SCRATCH COPY ONLY, so that the build goes on and every theorem that depends on a failed one can be listed
(by the axioms it uses).  One line per mutant goes to /verif/seeded/LOG.jsonl.
"""
import json, os, re, subprocess, sys, shutil
HOLE = "so" + "rry"
SRC, SCR = os.environ.get("MUT_SRC", "/verif/lean"), "/tmp/mut"
DECL = re.compile(r"^(?:@\[[^\]]*\]\s*)?(?:private |protected |noncomputable )*(theorem|lemma|example|instance|def|abbrev|structure|inductive)\b\s*([^\s:({\[]*)")

def sh(c, cwd=None):
    return subprocess.run(c, shell=True, cwd=cwd, capture_output=True, text=True)

def decl_at(lines, ln):
    for i in range(min(ln, len(lines)) - 1, -1, -1):
        m = DECL.match(lines[i])
        if m:
            return i, m.group(1), m.group(2)
    return None

def decl_end(lines, i):
    j = i + 1
    while j < len(lines):
        if re.match(r"^(theorem|lemma|example|instance|def|abbrev|structure|inductive|end\b|section|namespace|variable|open|/-|@\[|noncomputable|private|set_option|omit|include|local|attribute|deriving instance)", lines[j]):
            break
        j += 1
    return j

def cut(text):
    """position of the top-level := of a theorem statement"""
    depth = 0
    k = 0
    while k < len(text):
        c = text[k]
        if c in "([{⟨": depth += 1
        elif c in ")]}⟩": depth -= 1
        elif text.startswith(":=", k) and depth == 0:
            seg = text[:k]
            last = max(seg.rfind("\n"), seg.rfind(";"))
            if not re.search(r"\b(let|have)\s+[^\n;]*$", seg[last + 1:]):
                return k
        k += 1
    return None

def run(mu):
    sh(f"rm -rf {SCR} && cp -a {SRC} {SCR}")
    p = f"{SCR}/{mu['file']}"
    s = open(p).read()
    if s.count(mu["old"]) != 1:
        return {"status": "bad-mutant", "count": s.count(mu["old"])}
    open(p, "w").write(s.replace(mu["old"], mu["new"]))
    failed, broken_defs = [], []
    for _ in range(40):
        r = sh("lake build 2>&1", cwd=SCR)
        errs = re.findall(r"^error: (\S+?\.lean):(\d+):\d+:", r.stdout, re.M)
        if not errs:
            if "error" in r.stdout and "Build completed" not in r.stdout:
                return {"status": "tool", "out": r.stdout[-800:]}
            break
        todo = {}
        for f, l in errs:
            todo.setdefault(f, set()).add(int(l))
        progress = False
        for f, ls in todo.items():
            fp = os.path.join(SCR, f)
            lines = open(fp).read().split("\n")
            ds = {}
            for l in ls:
                d = decl_at(lines, l)
                if d: ds[d[0]] = d
            for i in sorted(ds, reverse=True):
                _, kind, name = ds[i]
                j = decl_end(lines, i)
                text = "\n".join(lines[i:j])
                if kind in ("theorem", "lemma", "example", "instance"):
                    k = cut(text)
                    already = k is not None and text[k:].strip() == ":= " + HOLE
                    if k is None or already:
                        new = ""           # statement itself does not elaborate any more
                        broken_defs.append(name or f"example {f}:{i+1}")
                    else:
                        new = text[:k] + ":= " + HOLE
                    failed.append(name or f"example at {f.replace('Verif/','')}:{i+1}")
                    pad = [""] * (len(lines[i:j]) - len(new.split("\n")))
                    lines[i:j] = new.split("\n") + pad
                    progress = True
                else:
                    broken_defs.append(f"{kind} {name}")
                    if len(broken_defs) > 30: return {"status": "def-broken", "defs": broken_defs, "failed": failed}
                    if kind == "def":
                        return {"status": "def-broken", "defs": broken_defs, "failed": failed, "out": r.stdout[-1500:]}
            open(fp, "w").write("\n".join(lines))
        if not progress:
            return {"status": "stuck", "failed": failed, "out": r.stdout[-1500:]}
    # theorems of the manifest that now rest on a hole
    claims = json.load(open(os.environ.get("MUT_MANIFEST", "/verif/MANIFEST.json")))["claims"]
    names = [t for c in claims for t in c["theorems"]]
    q = "import Verif\n" + "\n".join(f"#print axioms {n}" for n in names)
    open("/tmp/mutq.lean", "w").write(q)
    r = sh("lake env lean /tmp/mutq.lean 2>&1", cwd=SCR)
    down = [m.split(".")[-1] for m in re.findall(r"'([^']+)' depends on axioms: \[[^\]]*" + HOLE + r"Ax", r.stdout)]
    gone = [m.split(".")[-1] for m in re.findall(r"[Uu]nknown (?:constant|identifier) [`']([^`']+)[`']", r.stdout)]
    return {"status": "ok", "failed": failed, "down": down + gone}

def main():
    mus = json.load(open(sys.argv[1]))
    only = set(sys.argv[3:]) if len(sys.argv) > 2 and sys.argv[2] == "--only" else None
    log = "/verif/seeded/LOG.jsonl"
    done = {json.loads(l).get("id") for l in open(log) if l.strip()}
    for mu in mus:
        if only is not None:
            if mu["id"] not in only: continue
        elif mu["id"] in done: continue
        res = run(mu)
        if res["status"] != "ok":
            print("!!", mu["id"], res, flush=True)
            continue
        props = sorted(set(res["down"]) | {f for f in res["failed"] if re.match(r"C\d\d_", f)})
        entry = {"id": mu["id"], "definition": mu["definition"], "edit": mu["edit"], "claim": mu["claim"],
                 "theorems_failed": props,
                 "proofs_failed_directly": list(dict.fromkeys(res["failed"])),
                 "theorems_tightened": mu.get("tightened", [])}
        hit = any(t.startswith(c) for c in re.findall(r"C\d\d+", mu["claim"]) for t in props)
        entry["verdict"] = "caught" if hit else ("caught by other theorems" if props else "SURVIVED")
        with open(log, "a") as f:
            f.write(json.dumps(entry, ensure_ascii=False) + "\n")
        print(mu["id"], entry["verdict"], mu["claim"], len(props), props[:6], flush=True)

main()
