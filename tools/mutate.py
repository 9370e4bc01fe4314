"""Apply one edit at a time to a scratch copy of the Lean project, rebuild, and report which
theorems of Props/ no longer check.

usage: mutate.py LIST.py OUT.jsonl   (run from anywhere; needs a built /verif/lean)

LIST.py defines M = [(definition, file under Verif/Model, old text, new text, bug, claims)].
Only the modules stating the claims are rebuilt, with what they import.
A theorem counts as failing when it has an error or uses a declaration that has one.  While a claim
has no failing theorem, proofs with errors are replaced by `sorry` and the rest is built, to see
whether its theorems fail by themselves.
"""
import json, os, re, subprocess, sys

SRC, DST = os.environ.get("SRC", "/verif/lean"), os.environ.get("DST", "/tmp/mut")

def deps():
    """name -> (module, first line, last line, used), from DEPS written by a Lean script."""
    d = {}
    for l in open(os.environ.get("DEPS", "/tmp/w/deps.jsonl")):
        r = json.loads(l)
        d[r["n"]] = r
    return d

def closure(d, bad):
    users = {}
    for n, r in d.items():
        for u in r["u"]:
            users.setdefault(u, []).append(n)
    seen, todo = set(bad), list(bad)
    while todo:
        for n in users.get(todo.pop(), []):
            if n not in seen:
                seen.add(n); todo.append(n)
    return seen

TOP = re.compile(r"(theorem|example|def|instance|structure|inductive|abbrev|namespace|section|end|open|"
                 r"mutual|variable|private|deriving|set_option|@\[|/--|/-!)")

def drop(path, line):
    """Replace the proof that contains `line` by `sorry`, keeping line numbers."""
    ls = open(path).read().split("\n")
    a = line - 1
    while a > 0 and not TOP.match(ls[a]):
        a -= 1
    b = line
    while b < len(ls) and not TOP.match(ls[b]):
        b += 1
    if not re.match(r"(theorem|example|private theorem)", ls[a]):
        return False
    t = "\n".join(ls[a:b])
    if t.rstrip().endswith(":= sorry"):
        return False
    depth, cut, plain = 0, None, None
    for k, c in enumerate(t):
        if c in "([{⟨": depth += 1
        if c in ")]}⟩": depth -= 1
        if depth == 0 and t.startswith(":=", k):
            if re.match(r":=\s+by\b", t[k:]):
                cut = k
                break
            if plain is None:
                plain = k
    cut = plain if cut is None else cut
    # a proof by equations starts at its first `|`
    eqs = re.search(r"\n  \| ", t)
    if eqs and (cut is None or eqs.start() < cut) and re.match(r"(private )?theorem", t):
        cut = eqs.start()
        t = t[:cut] + " " + t[cut:]
        cut += 1
    if cut is None or t[cut:].startswith(":= sorry"):
        return False
    new = t[:cut] + ":= sorry" + "\n" * t[cut:].count("\n")
    ls[a:b] = new.split("\n")
    open(path, "w").write("\n".join(ls))
    return True

def blocks(path):
    """First and last lines of the mutual blocks of a file."""
    lo, out = None, []
    for k, l in enumerate(open(path).read().split("\n"), 1):
        if l == "mutual":
            lo = k
        elif l == "end" and lo:
            out.append((lo, k))
            lo = None
    return out

short = lambda n: n.split(".")[-1]

def main(lst, out):
    ns = {}
    exec(open(lst).read(), ns)
    d = deps()
    done = set()
    if os.path.exists(out):
        done = {(json.loads(l)["definition"], json.loads(l)["edit"]) for l in open(out)}
    for name, f, old, new, bug, claims in ns["M"]:
        edit = "%s  =>  %s" % (old.strip(), new.strip())
        if (name, edit) in done:
            continue
        subprocess.run(["rm", "-rf", DST], check=True)
        subprocess.run(["cp", "-a", SRC, DST], check=True)
        p = "%s/Verif/Model/%s.lean" % (DST, f)
        s = open(p).read()
        if s.count(old) != 1:
            print("SKIP", name, "occurs", s.count(old), flush=True)
            continue
        open(p, "w").write(s.replace(old, new))
        mods = sorted({x["m"] for n, x in d.items() if x["m"].startswith("Verif.Props.")
                       and any(n.split(".")[-1].startswith(c + "_") for c in claims)})
        bad, where, props, rounds = set(), [], [], 0
        while True:
            r = subprocess.run(["lake", "build"] + mods, cwd=DST, capture_output=True, text=True)
            errs = re.findall(r"^error: (Verif/\S+?)\.lean:(\d+):\d+", r.stdout, re.M)
            patched = False
            for path, line in sorted(set(errs)):
                mod, line = path.replace("/", "."), int(line)
                if mod.startswith("Verif.Model."):
                    where.append("MODEL %s:%d" % (mod, line))
                best = None
                for n, x in d.items():
                    if x["m"] == mod and x["a"] <= line <= x["b"]:
                        if best is None or x["a"] >= d[best]["a"]:
                            best = n
                if best:
                    bad.add(best)
                    # theorems of a mutual block stand or fall together
                    for lo, hi in blocks("%s/%s.lean" % (SRC, path)):
                        if lo <= d[best]["a"] <= hi:
                            bad |= {n for n, x in d.items() if x["m"] == mod and lo <= x["a"] <= hi}
                patched |= drop("%s/%s.lean" % (DST, path), line)
            if rounds == 0:
                first = sorted(short(n) for n in bad)
            allbad = closure(d, bad)
            props = sorted({short(n) for n in allbad
                            if d[n]["m"].startswith("Verif.Props.") and re.match(r"C\d\d_", short(n))})
            hit = {c: [p for p in props if p.startswith(c + "_")] for c in claims}
            if rounds == 0:
                ok0 = r.returncode == 0
            rounds += 1
            if r.returncode == 0 or all(hit.values()) or not patched or rounds > 12:
                break
        rec = {"definition": name, "edit": edit, "bug": bug, "breaks": claims,
               "first_errors": first[:12] + where,
               "theorems_failed": props, "missed": [c for c in claims if not hit[c]],
               "tightened": []}
        with open(out, "a") as o:
            o.write(json.dumps(rec) + "\n")
        print(name, "|", bug, "| errors", first[:5], where, "rounds", rounds,
              "| failed", len(props), "| MISSED" if rec["missed"] or ok0 else "", rec["missed"],
              "BUILD OK" if ok0 else "ALL BUILT" if r.returncode == 0 else "", flush=True)

main(*sys.argv[1:3])
