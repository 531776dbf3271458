.lake/
build/
__pycache__/
*.olean
